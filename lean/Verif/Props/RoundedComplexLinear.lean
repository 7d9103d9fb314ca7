import Verif.Lemmas.RoundedComplexSolve
import Verif.Props.RoundedComplex
import Verif.Props.RoundedLinear

/-!
# C146: backward stability of the triangular solvers and the LU decompositions of complex matrices
-/

namespace Mathter.Props
open Mathter
variable {n m : ℕ}

/-- Both parts are `p`-bit floats. -/
def IsFloatC (p : ℕ) (z : ℂ) : Prop := IsFloat p z.re ∧ IsFloat p z.im

/-- The division of complex floats returns complex floats, with a relative error (of the complex number, not of its parts) of at most six rounding errors. -/
def AccurateDivC (p : ℕ) (dv : ℂ → ℂ → ℂ) : Prop :=
  ∀ a b, b ≠ 0 → IsFloatC p (dv a b) ∧ ‖dv a b - a / b‖ ≤ 6 * (2 : ℝ) ^ (-(p : ℤ)) * ‖a / b‖

/-- The modulus has a relative error of at most four rounding errors. -/
def AccurateAbsC (p : ℕ) (ab : ℂ → ℝ) : Prop := ∀ z, |ab z - ‖z‖| ≤ 4 * (2 : ℝ) ^ (-(p : ℤ)) * ‖z‖

/-- What `k` operations with complex `p`-bit floats add up to: about `6 k * 2^-p`. -/
noncomputable def roundoffC (p k : ℕ) : ℝ := (1 / (1 - 6 * (2 : ℝ) ^ (-(p : ℤ)))) ^ k - 1

private theorem unit_le {p : ℕ} (hp : 8 ≤ p) : (2 : ℝ) ^ (-(p : ℤ)) ≤ 1 / 256 := by
  rw [show (1 / 256 : ℝ) = (2 : ℝ) ^ (-(8 : ℤ)) by norm_num]
  exact zpow_le_zpow_right₀ (by norm_num) (by omega)

private theorem unit_ltC {p : ℕ} (hp : 8 ≤ p) : 6 * (2 : ℝ) ^ (-(p : ℤ)) < 1 := by linarith [unit_le hp]

private theorem modulus_lt {p : ℕ} (hp : 8 ≤ p) : 4 * (2 : ℝ) ^ (-(p : ℤ)) < 1 := by linarith [unit_le hp]

/-- `roundoffC` is below the usual bound `6 k u / (1 - 6 k u)`. -/
theorem C146_roundoff {p k : ℕ} (hp : 8 ≤ p) (hk : k * (6 * (2 : ℝ) ^ (-(p : ℤ))) < 1) :
    0 ≤ roundoffC p k ∧ roundoffC p k ≤ k * (6 * (2 : ℝ) ^ (-(p : ℤ))) / (1 - k * (6 * (2 : ℝ) ^ (-(p : ℤ)))) := by
  have h1 := unit_ltC hp
  have h0 : (0 : ℝ) ≤ 6 * (2 : ℝ) ^ (-(p : ℤ)) := by positivity
  unfold roundoffC
  set u := 6 * (2 : ℝ) ^ (-(p : ℤ))
  refine ⟨Fl.growth_nonneg h0 h1 k, ?_⟩
  have b : 1 + k * (-u) ≤ (1 + -u) ^ k := one_add_mul_le_pow (by linarith) k
  have e : 1 + k * (-u) = 1 - k * u := by ring
  rw [e] at b
  have hpos : 0 < 1 - k * u := by linarith
  have : (1 / (1 - u)) ^ k ≤ 1 / (1 - k * u) := by
    rw [div_pow, one_pow]
    exact one_div_le_one_div_of_le hpos (by simpa [sub_eq_add_neg] using b)
  have e2 : k * u / (1 - k * u) = 1 / (1 - k * u) - 1 := by field_simp; ring
  rw [e2]; linarith

private theorem norm_parts {z : ℂ} {t : ℝ} (h1 : |z.re| ≤ t) (h2 : |z.im| ≤ t) : ‖z‖ ≤ 283 / 200 * t := by
  have t0 : 0 ≤ t := (abs_nonneg _).trans h1
  rw [Complex.norm_eq_sqrt_sq_add_sq]
  apply Real.sqrt_le_iff.2
  refine ⟨by positivity, ?_⟩
  have a := pow_le_pow_left₀ (abs_nonneg _) h1 2
  have b := pow_le_pow_left₀ (abs_nonneg _) h2 2
  rw [sq_abs] at a b
  nlinarith [sq_nonneg t]

theorem complex_norm_fl {fl : ℝ → ℝ} {u : ℝ} (h : Rounding fl u) (z : ℂ) : ‖Fl.flC fl z - z‖ ≤ u * ‖z‖ := by
  have hu := h.u_nonneg
  rw [Complex.norm_eq_sqrt_sq_add_sq, Complex.norm_eq_sqrt_sq_add_sq]
  apply Real.sqrt_le_iff.2
  refine ⟨mul_nonneg hu (Real.sqrt_nonneg _), ?_⟩
  rw [mul_pow, Real.sq_sqrt (by positivity)]
  have a := pow_le_pow_left₀ (abs_nonneg _) (h.err z.re) 2
  have b := pow_le_pow_left₀ (abs_nonneg _) (h.err z.im) 2
  rw [mul_pow, sq_abs, sq_abs] at a b
  rw [Complex.sub_re, Complex.sub_im]
  show (fl z.re - z.re) ^ 2 + (fl z.im - z.im) ^ 2 ≤ _
  linarith

theorem complex_norm_prod {fl : ℝ → ℝ} {u : ℝ} (h : Rounding fl u) {ps pd : ℝ → ℝ → ℝ → ℝ → ℝ} (hps : Fl.IsProdSum fl ps) (hpd : Fl.IsProdDiff fl pd) (a b : ℂ) :
    ‖Fl.prodC ps pd a b - a * b‖ ≤ 283 / 200 * ((1 + u) ^ 2 - 1) * ‖a * b‖ := by
  have g0 : (0 : ℝ) ≤ (1 + u) ^ 2 - 1 := by linarith [h.one_le 2]
  have e1 := (Near.pd h hpd (Near.exact (u := u) a.re) (Near.exact b.re) (Near.exact a.im) (Near.exact b.im)).err
  have e2 := (complex_near_ps h hps a.re b.im a.im b.re).err
  obtain ⟨c1, c2⟩ := complex_cauchy a b
  rw [mul_assoc, norm_mul]
  apply norm_parts
  · rw [Complex.sub_re, Complex.mul_re]
    exact e1.trans (mul_le_mul_of_nonneg_left c1 g0)
  · rw [Complex.sub_im, Complex.mul_im]
    exact e2.trans (mul_le_mul_of_nonneg_left c2 g0)

private theorem div_arith {u nN nn s B e1 e2 X : ℝ} (u0 : 0 ≤ u) (u1 : u ≤ 1 / 256) (hN : nN = X * B) (hX : 0 ≤ X) (hB : 0 < B)
    (hs : |s - B| ≤ ((1 + u) ^ 2 - 1) * B) (hn : nn ≤ nN + 283 / 200 * ((1 + u) ^ 2 - 1) * nN)
    (h1 : e1 ≤ u * (nn / s)) (h2 : e2 ≤ 283 / 200 * ((1 + u) ^ 2 - 1) * nN / s + nN * |B - s| / (s * B)) : 0 < s ∧ e1 + e2 ≤ 6 * u * X := by
  have g0 : 0 ≤ (1 + u) ^ 2 - 1 := by nlinarith
  set g := (1 + u) ^ 2 - 1 with hg
  have g1 : g = 2 * u + u ^ 2 := by rw [hg]; ring
  have s1 : (1 - g) * B ≤ s := by have := (abs_le.1 hs).1; linarith
  have gl : g ≤ 1 / 100 := by nlinarith
  have s0 : 0 < s := lt_of_lt_of_le (mul_pos (by linarith) hB) s1
  refine ⟨s0, ?_⟩
  have n0 : 0 ≤ nN := by rw [hN]; positivity
  rw [abs_sub_comm] at hs
  have k1 : nN * |B - s| / (s * B) ≤ g * nN / s := by
    rw [div_le_div_iff₀ (by positivity) s0]
    have := mul_le_mul_of_nonneg_left hs n0
    nlinarith [mul_le_mul_of_nonneg_right this s0.le]
  have k2 : u * (nn / s) ≤ u * (nN + 283 / 200 * g * nN) / s := by
    rw [mul_div_assoc]
    exact mul_le_mul_of_nonneg_left (div_le_div_of_nonneg_right hn s0.le) u0
  have k3 : e1 + e2 ≤ (u * (nN + 283 / 200 * g * nN) + 283 / 200 * g * nN + g * nN) / s := by
    rw [add_div, add_div]; linarith
  refine k3.trans ?_
  rw [div_le_iff₀ s0]
  have k4 : 6 * u * X * ((1 - g) * B) ≤ 6 * u * X * s := mul_le_mul_of_nonneg_left s1 (by positivity)
  refine le_trans ?_ k4
  have k5 : u * (1 + 283 / 200 * g) + 283 / 200 * g + g ≤ 6 * u * (1 - g) := by
    rw [g1]
    nlinarith [mul_nonneg u0 u0, mul_nonneg (mul_nonneg u0 u0) u0]
  rw [hN]
  have k6 := mul_le_mul_of_nonneg_right k5 (by positivity : 0 ≤ X * B)
  nlinarith

/-- C146: the textbook division of complex floats is accurate in this sense. -/
theorem C146_division {p : ℕ} (hp : 8 ≤ p) {fl : ℝ → ℝ} (h : RoundsToNearest p fl) {ps pd : ℝ → ℝ → ℝ → ℝ → ℝ} (hps : Fl.IsProdSum fl ps)
    (hpd : Fl.IsProdDiff fl pd) : AccurateDivC p (Fl.divC fl ps pd) := by
  intro a b hb
  have hr := h.rounding (by omega : 1 ≤ p)
  refine ⟨⟨h.mem _, h.mem _⟩, ?_⟩
  set u := (2 : ℝ) ^ (-(p : ℤ))
  have u0 := hr.u_nonneg
  have g0 : (0 : ℝ) ≤ (1 + u) ^ 2 - 1 := by linarith [hr.one_le 2]
  set s := ps b.re b.re b.im b.im with hs
  set N : ℂ := ⟨ps a.re b.re a.im b.im, pd a.im b.re a.re b.im⟩ with hN
  have hBn : 0 < ‖b‖ := norm_pos_iff.2 hb
  have eB : b.re * b.re + b.im * b.im = ‖b‖ ^ 2 := by rw [← Complex.normSq_eq_norm_sq, Complex.normSq_apply]
  have hsB : |s - ‖b‖ ^ 2| ≤ ((1 + u) ^ 2 - 1) * ‖b‖ ^ 2 := by
    have := (complex_near_ps hr hps b.re b.re b.im b.im).err
    rw [← abs_mul, ← abs_mul, abs_of_nonneg (mul_self_nonneg b.re), abs_of_nonneg (mul_self_nonneg b.im), eB] at this
    exact this
  have hNe : ‖N - a * star b‖ ≤ 283 / 200 * ((1 + u) ^ 2 - 1) * (‖a‖ * ‖b‖) := by
    obtain ⟨c1, c2⟩ := complex_cauchy a b
    have e1 := (complex_near_ps hr hps a.re b.re a.im b.im).err
    have e2 := (Near.pd hr hpd (Near.exact (u := u) a.im) (Near.exact b.re) (Near.exact a.re) (Near.exact b.im)).err
    rw [mul_assoc]
    apply norm_parts
    · have : (N - a * star b).re = ps a.re b.re a.im b.im - (a.re * b.re + a.im * b.im) := by simp [hN]
      rw [this]
      exact e1.trans (mul_le_mul_of_nonneg_left c1 g0)
    · have : (N - a * star b).im = pd a.im b.re a.re b.im - (a.im * b.re - a.re * b.im) := by simp [hN]; ring
      rw [this]
      exact e2.trans (mul_le_mul_of_nonneg_left (by linarith) g0)
  have hq : Fl.divC fl ps pd a b = Fl.flC fl (N / (s : ℂ)) := by
    unfold Fl.divC Fl.flC
    simp only [Complex.div_ofReal_re, Complex.div_ofReal_im, hN, hs]
  have hab : a / b = a * star b / ((‖b‖ ^ 2 : ℝ) : ℂ) := by
    rw [div_eq_div_iff hb (by exact_mod_cast (pow_pos hBn 2).ne')]
    push_cast
    rw [mul_assoc, mul_comm (star b) b, Complex.star_def, Complex.mul_conj']
  have e1 := complex_norm_fl hr (N / (s : ℂ))
  have s0 : 0 < s := by
    have := (abs_le.1 hsB).1
    have u1 := unit_le hp
    have : (1 + u) ^ 2 - 1 ≤ 1 / 2 := by nlinarith
    nlinarith [pow_pos hBn 2]
  rw [norm_div, Complex.norm_real, Real.norm_of_nonneg s0.le] at e1
  have e2 : ‖N / (s : ℂ) - a / b‖ ≤ 283 / 200 * ((1 + u) ^ 2 - 1) * (‖a‖ * ‖b‖) / s + (‖a‖ * ‖b‖) * |‖b‖ ^ 2 - s| / (s * ‖b‖ ^ 2) := by
    have hs' : (s : ℂ) ≠ 0 := by exact_mod_cast s0.ne'
    have hB' : ((‖b‖ ^ 2 : ℝ) : ℂ) ≠ 0 := by exact_mod_cast (pow_pos hBn 2).ne'
    have e : N / (s : ℂ) - a / b = (N - a * star b) / s + a * star b * ((‖b‖ ^ 2 - s : ℝ) : ℂ) / (s * ((‖b‖ ^ 2 : ℝ) : ℂ)) := by
      rw [hab]
      field_simp
      push_cast
      ring
    rw [e]
    refine (norm_add_le _ _).trans (add_le_add ?_ (le_of_eq ?_))
    · rw [norm_div, Complex.norm_real, Real.norm_of_nonneg s0.le]
      exact div_le_div_of_nonneg_right hNe s0.le
    · rw [norm_div, norm_mul, norm_mul, norm_mul, norm_star, Complex.norm_real, Complex.norm_real, Complex.norm_real, Real.norm_of_nonneg s0.le,
        Real.norm_of_nonneg (sq_nonneg ‖b‖), Real.norm_eq_abs]
  have hn : ‖N‖ ≤ ‖a‖ * ‖b‖ + 283 / 200 * ((1 + u) ^ 2 - 1) * (‖a‖ * ‖b‖) := by
    have t := norm_add_le (N - a * star b) (a * star b)
    rw [sub_add_cancel, norm_mul, norm_star] at t
    linarith
  have := (div_arith u0 (unit_le hp) (X := ‖a / b‖) (by rw [norm_div]; field_simp) (norm_nonneg _) (pow_pos hBn 2) hsB hn e1 e2).2
  have t := norm_add_le (Fl.flC fl (N / (s : ℂ)) - N / (s : ℂ)) (N / (s : ℂ) - a / b)
  rw [sub_add_sub_cancel] at t
  rw [hq]
  exact t.trans this

private theorem sqrt_arith {u q S : ℝ} (u0 : 0 ≤ u) (u1 : u ≤ 1 / 256) (hS : 0 ≤ S) (hq : |q - S ^ 2| ≤ ((1 + u) ^ 2 - 1) * S ^ 2) : |Real.sqrt q - S| ≤ 5 / 2 * u * S := by
  obtain ⟨a, b⟩ := abs_le.1 hq
  have up : Real.sqrt q ≤ (1 + u) * S := by
    apply Real.sqrt_le_iff.2
    exact ⟨by positivity, by nlinarith⟩
  have lo : (1 - 5 / 2 * u) * S ≤ Real.sqrt q := by
    apply Real.le_sqrt_of_sq_le
    have : (1 - 5 / 2 * u) ^ 2 ≤ 1 - ((1 + u) ^ 2 - 1) := by nlinarith
    have := mul_le_mul_of_nonneg_right this (sq_nonneg S)
    rw [mul_pow]
    linarith
  rw [abs_le]
  have := mul_nonneg u0 hS
  constructor <;> nlinarith

/-- C146: so is the textbook modulus. -/
theorem C146_modulus {p : ℕ} (hp : 8 ≤ p) {fl : ℝ → ℝ} (h : RoundsToNearest p fl) {ps : ℝ → ℝ → ℝ → ℝ → ℝ} (hps : Fl.IsProdSum fl ps) :
    AccurateAbsC p (Fl.absC fl ps) := by
  intro z
  have hr := h.rounding (by omega : 1 ≤ p)
  have u0 := hr.u_nonneg
  have u1 := unit_le hp
  have e1 : |ps z.re z.re z.im z.im - ‖z‖ ^ 2| ≤ ((1 + (2 : ℝ) ^ (-(p : ℤ))) ^ 2 - 1) * ‖z‖ ^ 2 := by
    have := (complex_near_ps hr hps z.re z.re z.im z.im).err
    have eB : z.re * z.re + z.im * z.im = ‖z‖ ^ 2 := by rw [← Complex.normSq_eq_norm_sq, Complex.normSq_apply]
    rw [← abs_mul, ← abs_mul, abs_of_nonneg (mul_self_nonneg z.re), abs_of_nonneg (mul_self_nonneg z.im), eB] at this
    exact this
  have e2 := sqrt_arith u0 u1 (norm_nonneg z) e1
  have e3 := hr.err (Real.sqrt (ps z.re z.re z.im z.im))
  unfold Fl.absC
  generalize Real.sqrt (ps z.re z.re z.im z.im) = r at *
  set u := (2 : ℝ) ^ (-(p : ℤ))
  have t := abs_add_le (fl r - r) (r - ‖z‖)
  rw [sub_add_sub_cancel] at t
  have e4 : |r| ≤ ‖z‖ + 5 / 2 * u * ‖z‖ := by
    have := abs_add_le (r - ‖z‖) ‖z‖
    rw [sub_add_cancel, abs_of_nonneg (norm_nonneg z)] at this
    linarith
  have e5 := mul_le_mul_of_nonneg_left e4 u0
  have e6 : u * (u * ‖z‖) ≤ 1 / 256 * (u * ‖z‖) := mul_le_mul_of_nonneg_right u1 (mul_nonneg u0 (norm_nonneg z))
  have e7 := mul_nonneg u0 (norm_nonneg z)
  nlinarith

private theorem arithC {p : ℕ} (hp : 8 ≤ p) {fl : ℝ → ℝ} (h : RoundsToNearest p fl) {ps pd : ℝ → ℝ → ℝ → ℝ → ℝ} (hps : Fl.IsProdSum fl ps)
    (hpd : Fl.IsProdDiff fl pd) {dv : ℂ → ℂ → ℂ} (hdv : AccurateDivC p dv) : Fl.ArithC (6 * (2 : ℝ) ^ (-(p : ℤ))) (IsFloatC p) dv (Fl.mulSubC fl ps pd) := by
  have hr := h.rounding (by omega : 1 ≤ p)
  have u0 := hr.u_nonneg
  have u1 := unit_le hp
  have f0 : fl 0 = 0 := h.fixed ⟨0, 0, by simp, by positivity⟩
  have ps0 : ∀ x y, ps x 0 y 0 = 0 := fun x y => by rcases hps x 0 y 0 with e | e | e <;> rw [e] <;> simp [f0]
  have pd0 : ∀ x y, pd x 0 y 0 = 0 := fun x y => by rcases hpd x 0 y 0 with e | e | e <;> rw [e] <;> simp [f0]
  have ps1 : ∀ x y, ps 0 x 0 y = 0 := fun x y => by rcases hps 0 x 0 y with e | e | e <;> rw [e] <;> simp [f0]
  have pd1 : ∀ x y, pd 0 x 0 y = 0 := fun x y => by rcases hpd 0 x 0 y with e | e | e <;> rw [e] <;> simp [f0]
  refine ⟨by positivity, fun a b d => ⟨Fl.prodC ps pd b d, ?_, ?_⟩, fun a d hd => (hdv a d hd).2, fun a b ha => ?_, fun a b ha => ?_, fun a b d => ⟨h.mem _, h.mem _⟩,
    fun a d hd => (hdv a d hd).1, ⟨⟨0, 0, by simp, by positivity⟩, ⟨0, 0, by simp, by positivity⟩⟩, ⟨⟨1, 0, by simp, ?_⟩, ⟨0, 0, by simp, by positivity⟩⟩⟩
  · refine (complex_norm_prod hr hps hpd b d).trans (mul_le_mul_of_nonneg_right ?_ (norm_nonneg _))
    nlinarith
  · refine (complex_norm_fl hr (a - Fl.prodC ps pd b d)).trans (mul_le_mul_of_nonneg_right ?_ (norm_nonneg _))
    linarith
  · have e : Fl.prodC ps pd b 0 = 0 := by
      apply Complex.ext
      · exact pd0 _ _
      · exact ps0 _ _
    unfold Fl.mulSubC
    rw [e, sub_zero]
    exact Complex.ext (h.fixed ha.1) (h.fixed ha.2)
  · have e : Fl.prodC ps pd 0 b = 0 := by
      apply Complex.ext
      · exact pd1 _ _
      · exact ps1 _ _
    unfold Fl.mulSubC
    rw [e, sub_zero]
    exact Complex.ext (h.fixed ha.1) (h.fixed ha.2)
  · simpa using one_lt_pow₀ (by norm_num : (1 : ℤ) < 2) (by omega : p ≠ 0)

/-- C146: every column of the result of `SolveUpperTriangular` is the exact solution for a matrix that differs from `A` only by relative perturbations of
its elements, of the size of `n` rounding errors. -/
theorem C146_upper {p : ℕ} (hp : 8 ≤ p) {fl : ℝ → ℝ} (h : RoundsToNearest p fl) {ps pd : ℝ → ℝ → ℝ → ℝ → ℝ} (hps : Fl.IsProdSum fl ps)
    (hpd : Fl.IsProdDiff fl pd) {dv : ℂ → ℂ → ℂ} (hdv : AccurateDivC p dv)
    (A : Matrix (Fin n) (Fin n) ℂ) (b : Matrix (Fin n) (Fin m) ℂ) (hA : ∀ i j, IsFloatC p (A i j)) (ht : ∀ i j, j < i → A i j = 0) (hd : ∀ i, A i i ≠ 0) :
    ∃ X, Fl.solveUpperC dv (Fl.mulSubC fl ps pd) A b = some X ∧ ∀ j, ∃ D : Matrix (Fin n) (Fin n) ℂ, (∀ i q, ‖D i q‖ ≤ roundoffC p n * ‖A i q‖) ∧
      (A + D).mulVec (fun q => X q j) = fun i => b i j := by
  have hr := arithC hp h hps hpd hdv
  obtain ⟨X, hX, hres⟩ := Fl.solveUpperC_residual hr (unit_ltC hp) A b hA ht hd
  exact ⟨X, hX, fun j => Fl.perturbC (Fl.growth_nonneg hr.u_nonneg (unit_ltC hp) n) (fun i => hres i j)⟩

/-- C146: the same for `SolveLowerTriangular`. -/
theorem C146_lower {p : ℕ} (hp : 8 ≤ p) {fl : ℝ → ℝ} (h : RoundsToNearest p fl) {ps pd : ℝ → ℝ → ℝ → ℝ → ℝ} (hps : Fl.IsProdSum fl ps)
    (hpd : Fl.IsProdDiff fl pd) {dv : ℂ → ℂ → ℂ} (hdv : AccurateDivC p dv)
    (A : Matrix (Fin n) (Fin n) ℂ) (b : Matrix (Fin n) (Fin m) ℂ) (hA : ∀ i j, IsFloatC p (A i j)) (ht : ∀ i j, i < j → A i j = 0) (hd : ∀ i, A i i ≠ 0) :
    ∃ X, Fl.solveLowerC dv (Fl.mulSubC fl ps pd) A b = some X ∧ ∀ j, ∃ D : Matrix (Fin n) (Fin n) ℂ, (∀ i q, ‖D i q‖ ≤ roundoffC p n * ‖A i q‖) ∧
      (A + D).mulVec (fun q => X q j) = fun i => b i j := by
  have hr := arithC hp h hps hpd hdv
  obtain ⟨X, hX, hres⟩ := Fl.solveLowerC_residual hr (unit_ltC hp) A b hA ht hd
  exact ⟨X, hX, fun j => Fl.perturbC (Fl.growth_nonneg hr.u_nonneg (unit_ltC hp) n) (fun i => hres i j)⟩

private theorem transpose_row {A D : Matrix (Fin n) (Fin n) ℂ} {x b : Fin n → ℂ} (h : (A.transpose + D).mulVec x = b) :
    Matrix.vecMul x (A + D.transpose) = b := by
  rw [← h, ← Matrix.vecMul_transpose, Matrix.transpose_add, Matrix.transpose_transpose]

/-- C146: `SolveUpperTriangular` for follow-vector order solves `x A = b`, row by row. -/
theorem C146_upper_follow {p : ℕ} (hp : 8 ≤ p) {fl : ℝ → ℝ} (h : RoundsToNearest p fl) {ps pd : ℝ → ℝ → ℝ → ℝ → ℝ} (hps : Fl.IsProdSum fl ps)
    (hpd : Fl.IsProdDiff fl pd) {dv : ℂ → ℂ → ℂ} (hdv : AccurateDivC p dv)
    (A : Matrix (Fin n) (Fin n) ℂ) (b : Matrix (Fin m) (Fin n) ℂ) (hA : ∀ i j, IsFloatC p (A i j)) (ht : ∀ i j, j < i → A i j = 0) (hd : ∀ i, A i i ≠ 0) :
    ∃ X, Fl.solveUpperFollowC dv (Fl.mulSubC fl ps pd) A b = some X ∧ ∀ j, ∃ D : Matrix (Fin n) (Fin n) ℂ, (∀ i q, ‖D i q‖ ≤ roundoffC p n * ‖A i q‖) ∧
      Matrix.vecMul (X j) (A + D) = b j := by
  obtain ⟨X, hX, hb⟩ := C146_lower hp h hps hpd hdv A.transpose b.transpose (fun i j => hA j i) (fun i j hij => ht j i hij) hd
  refine ⟨X.transpose, by unfold Fl.solveUpperFollowC; rw [hX]; rfl, fun j => ?_⟩
  obtain ⟨D, hD, e⟩ := hb j
  exact ⟨D.transpose, fun i q => hD q i, transpose_row e⟩

/-- C146: `SolveLowerTriangular` for follow-vector order. -/
theorem C146_lower_follow {p : ℕ} (hp : 8 ≤ p) {fl : ℝ → ℝ} (h : RoundsToNearest p fl) {ps pd : ℝ → ℝ → ℝ → ℝ → ℝ} (hps : Fl.IsProdSum fl ps)
    (hpd : Fl.IsProdDiff fl pd) {dv : ℂ → ℂ → ℂ} (hdv : AccurateDivC p dv)
    (A : Matrix (Fin n) (Fin n) ℂ) (b : Matrix (Fin m) (Fin n) ℂ) (hA : ∀ i j, IsFloatC p (A i j)) (ht : ∀ i j, i < j → A i j = 0) (hd : ∀ i, A i i ≠ 0) :
    ∃ X, Fl.solveLowerFollowC dv (Fl.mulSubC fl ps pd) A b = some X ∧ ∀ j, ∃ D : Matrix (Fin n) (Fin n) ℂ, (∀ i q, ‖D i q‖ ≤ roundoffC p n * ‖A i q‖) ∧
      Matrix.vecMul (X j) (A + D) = b j := by
  obtain ⟨X, hX, hb⟩ := C146_upper hp h hps hpd hdv A.transpose b.transpose (fun i j => hA j i) (fun i j hij => ht j i hij) hd
  refine ⟨X.transpose, by unfold Fl.solveLowerFollowC; rw [hX]; rfl, fun j => ?_⟩
  obtain ⟨D, hD, e⟩ := hb j
  exact ⟨D.transpose, fun i q => hD q i, transpose_row e⟩

/-- C146: `DecomposeLU`, whenever it meets no zero pivot: the triangular factors multiply to `A` up to a componentwise small error. -/
theorem C146_lu {p : ℕ} (hp : 8 ≤ p) {fl : ℝ → ℝ} (h : RoundsToNearest p fl) {ps pd : ℝ → ℝ → ℝ → ℝ → ℝ} (hps : Fl.IsProdSum fl ps)
    (hpd : Fl.IsProdDiff fl pd) {dv : ℂ → ℂ → ℂ} (hdv : AccurateDivC p dv)
    (A : Matrix (Fin (n + 1)) (Fin (n + 1)) ℂ) (hA : ∀ i j, IsFloatC p (A i j)) (d : LU ℂ (n + 1)) (hd : Fl.decomposeLUC dv (Fl.mulSubC fl ps pd) A = some d) :
    (∀ i, d.L i i = 1) ∧ (∀ i j, i < j → d.L i j = 0) ∧ (∀ i j, j < i → d.U i j = 0) ∧
    ∀ i j, ‖(d.L * d.U) i j - A i j‖ ≤ roundoffC p n * ∑ q, ‖d.L i q‖ * ‖d.U q j‖ :=
  (Fl.decomposeLUC_inv (arithC hp h hps hpd hdv) (unit_ltC hp) hA hd).final

/-- C146: `DecomposeLUP` of any matrix of floats: a permutation, triangular factors, multipliers of at most 1 up to rounding (so `L` cannot amplify), and a
componentwise small residual. -/
theorem C146_lup {p : ℕ} (hp : 8 ≤ p) {fl : ℝ → ℝ} (h : RoundsToNearest p fl) {ps pd : ℝ → ℝ → ℝ → ℝ → ℝ} (hps : Fl.IsProdSum fl ps)
    (hpd : Fl.IsProdDiff fl pd) {dv : ℂ → ℂ → ℂ} (hdv : AccurateDivC p dv) {ab : ℂ → ℝ} (hab : AccurateAbsC p ab)
    (A : Matrix (Fin (n + 1)) (Fin (n + 1)) ℂ) (hA : ∀ i j, IsFloatC p (A i j)) :
    let d := Fl.decomposeLUPC dv ab (Fl.mulSubC fl ps pd) A
    Function.Bijective d.P ∧ (∀ i, d.L i i = 1) ∧ (∀ i j, i < j → d.L i j = 0) ∧ (∀ i j, ‖d.L i j‖ ≤ (1 + 6 * (2 : ℝ) ^ (-(p : ℤ))) * ((1 + 4 * (2 : ℝ) ^ (-(p : ℤ))) / (1 - 4 * (2 : ℝ) ^ (-(p : ℤ))))) ∧ (∀ i j, j < i → d.U i j = 0) ∧
    ∀ i j, ‖(d.L * d.U) i j - A (d.P i) j‖ ≤ roundoffC p n * ∑ q, ‖d.L i q‖ * ‖d.U q j‖ := by
  have inv := Fl.decomposeLUPC_inv (arithC hp h hps hpd hdv) (unit_ltC hp) (modulus_lt hp) hab hA
  obtain ⟨a, b, e, f⟩ := inv.lu.final
  exact ⟨Finite.injective_iff_bijective.1 inv.inj, a, b, inv.bound, e, f⟩

/-- C146: `DecompositionLU::Solve` on the rounded factors: each column of the result solves a system that differs from `A` by a small multiple of
`‖L‖ ‖U‖`. -/
theorem C146_lu_solve {p : ℕ} (hp : 8 ≤ p) {fl : ℝ → ℝ} (h : RoundsToNearest p fl) {ps pd : ℝ → ℝ → ℝ → ℝ → ℝ} (hps : Fl.IsProdSum fl ps)
    (hpd : Fl.IsProdDiff fl pd) {dv : ℂ → ℂ → ℂ} (hdv : AccurateDivC p dv)
    (A : Matrix (Fin (n + 1)) (Fin (n + 1)) ℂ) (hA : ∀ i j, IsFloatC p (A i j)) (d : LU ℂ (n + 1)) (hd : Fl.decomposeLUC dv (Fl.mulSubC fl ps pd) A = some d)
    (hU : ∀ i, d.U i i ≠ 0) (b : Matrix (Fin (n + 1)) (Fin m) ℂ) :
    ∃ X, Fl.luSolveC dv (Fl.mulSubC fl ps pd) d.L d.U b = some X ∧ ∀ j, ∃ D : Matrix (Fin (n + 1)) (Fin (n + 1)) ℂ,
      (∀ i q, ‖D i q‖ ≤ roundoffC p (3 * n + 2) * ∑ t, ‖d.L i t‖ * ‖d.U t q‖) ∧ (A + D).mulVec (fun q => X q j) = fun i => b i j := by
  have inv := Fl.decomposeLUC_inv (arithC hp h hps hpd hdv) (unit_ltC hp) hA hd
  obtain ⟨a1, a2, a3, a4⟩ := inv.final
  obtain ⟨Y, hY, hYb⟩ := C146_lower hp h hps hpd hdv d.L b inv.fixL a2 (fun i => by rw [a1 i]; exact one_ne_zero)
  obtain ⟨X, hX, hXb⟩ := C146_upper hp h hps hpd hdv d.U Y inv.fixU a3 hU
  refine ⟨X, by unfold Fl.luSolveC; rw [hY]; exact hX, fun j => ?_⟩
  obtain ⟨DL, hDL, eL⟩ := hYb j
  obtain ⟨DU, hDU, eU⟩ := hXb j
  refine ⟨(d.L + DL) * (d.U + DU) - A, fun i q => ?_, ?_⟩
  · have := Fl.composeC (arithC hp h hps hpd hdv).u_nonneg (unit_ltC hp) a4 hDL hDU i q
    rwa [show n + 2 * (n + 1) = 3 * n + 2 by ring] at this
  · rw [add_sub_cancel, ← Matrix.mulVec_mulVec, eU, eL]

/-- C146: `DecompositionLUP::Solve` on the rounded factors, unless a diagonal element of `U` is zero. -/
theorem C146_lup_solve {p : ℕ} (hp : 8 ≤ p) {fl : ℝ → ℝ} (h : RoundsToNearest p fl) {ps pd : ℝ → ℝ → ℝ → ℝ → ℝ} (hps : Fl.IsProdSum fl ps)
    (hpd : Fl.IsProdDiff fl pd) {dv : ℂ → ℂ → ℂ} (hdv : AccurateDivC p dv) {ab : ℂ → ℝ} (hab : AccurateAbsC p ab)
    (A : Matrix (Fin (n + 1)) (Fin (n + 1)) ℂ) (hA : ∀ i j, IsFloatC p (A i j)) (hU : ∀ i, (Fl.decomposeLUPC dv ab (Fl.mulSubC fl ps pd) A).U i i ≠ 0)
    (b0 b : Matrix (Fin (n + 1)) (Fin m) ℂ) :
    let d := Fl.decomposeLUPC dv ab (Fl.mulSubC fl ps pd) A
    ∃ X, Fl.lupSolveC dv (Fl.mulSubC fl ps pd) d b0 b = some X ∧ ∀ j, ∃ D : Matrix (Fin (n + 1)) (Fin (n + 1)) ℂ,
      (∀ i q, ‖D (d.P i) q‖ ≤ roundoffC p (3 * n + 2) * ∑ t, ‖d.L i t‖ * ‖d.U t q‖) ∧ (A + D).mulVec (fun q => X q j) = fun i => b i j := by
  intro d
  have inv := Fl.decomposeLUPC_inv (arithC hp h hps hpd hdv) (unit_ltC hp) (modulus_lt hp) hab hA
  obtain ⟨a1, a2, a3, a4⟩ := inv.lu.final
  obtain ⟨Y, hY, hYb⟩ := C146_lower hp h hps hpd hdv d.L (permuteRows d.P b0 b) inv.lu.fixL a2
    (fun i => by rw [a1 i]; exact one_ne_zero)
  obtain ⟨X, hX, hXb⟩ := C146_upper hp h hps hpd hdv d.U Y inv.lu.fixU a3 hU
  refine ⟨X, by unfold Fl.lupSolveC Fl.luSolveC; rw [hY]; exact hX, fun j => ?_⟩
  obtain ⟨DL, hDL, eL⟩ := hYb j
  obtain ⟨DU, hDU, eU⟩ := hXb j
  obtain ⟨Q, hQ1, hQ2⟩ := Function.bijective_iff_has_inverse.1 (Finite.injective_iff_bijective.1 inv.inj)
  have key : ∀ i, ∑ q, ((d.L + DL) * (d.U + DU)) i q * X q j = b (d.P i) j := by
    have e : ((d.L + DL) * (d.U + DU)).mulVec (fun q => X q j) = fun i => (permuteRows d.P b0 b) i j := by
      rw [← Matrix.mulVec_mulVec, eU, eL]
    intro i
    have := congrFun e i
    rw [permuteRows_eq] at this
    exact this
  refine ⟨Matrix.of fun i q => ((d.L + DL) * (d.U + DU)) (Q i) q - A i q, fun i q => ?_, ?_⟩
  · have := Fl.composeC (arithC hp h hps hpd hdv).u_nonneg (unit_ltC hp) a4 hDL hDU i q
    rw [show n + 2 * (n + 1) = 3 * n + 2 by ring] at this
    have e : Q (d.P i) = i := hQ1 i
    rw [Matrix.of_apply, e]
    exact this
  · ext i
    have := key (Q i)
    rw [show d.P (Q i) = i from hQ2 i] at this
    rw [← this]
    simp [Matrix.mulVec, dotProduct]

/-- C146: `DecompositionLUP::Solve` for follow-vector order (`x A = b`). -/
theorem C146_lup_solve_follow {p : ℕ} (hp : 8 ≤ p) {fl : ℝ → ℝ} (h : RoundsToNearest p fl) {ps pd : ℝ → ℝ → ℝ → ℝ → ℝ} (hps : Fl.IsProdSum fl ps)
    (hpd : Fl.IsProdDiff fl pd) {dv : ℂ → ℂ → ℂ} (hdv : AccurateDivC p dv) {ab : ℂ → ℝ} (hab : AccurateAbsC p ab)
    (A : Matrix (Fin (n + 1)) (Fin (n + 1)) ℂ) (hA : ∀ i j, IsFloatC p (A i j)) (hU : ∀ i, (Fl.decomposeLUPC dv ab (Fl.mulSubC fl ps pd) A).U i i ≠ 0)
    (b0 b : Matrix (Fin m) (Fin (n + 1)) ℂ) :
    let d := Fl.decomposeLUPC dv ab (Fl.mulSubC fl ps pd) A
    ∃ X, Fl.lupSolveFollowC dv (Fl.mulSubC fl ps pd) d b0 b = some X ∧ ∀ j, ∃ D : Matrix (Fin (n + 1)) (Fin (n + 1)) ℂ,
      (∀ i q, ‖D (d.P i) q‖ ≤ roundoffC p (3 * n + 2) * ∑ t, ‖d.L i t‖ * ‖d.U t q‖) ∧ Matrix.vecMul (X j) (A + D) = b j := by
  intro d
  have inv := Fl.decomposeLUPC_inv (arithC hp h hps hpd hdv) (unit_ltC hp) (modulus_lt hp) hab hA
  obtain ⟨a1, a2, a3, a4⟩ := inv.lu.final
  obtain ⟨Y, hY, hYb⟩ := C146_upper_follow hp h hps hpd hdv d.U b inv.lu.fixU a3 hU
  obtain ⟨X, hX, hXb⟩ := C146_lower_follow hp h hps hpd hdv d.L Y inv.lu.fixL a2 (fun i => by rw [a1 i]; exact one_ne_zero)
  refine ⟨inversePermuteCols d.P b0 X, by unfold Fl.lupSolveFollowC Fl.luSolveFollowC; rw [hY, Option.bind_some, hX]; rfl, fun j => ?_⟩
  obtain ⟨DU, hDU, eU⟩ := hYb j
  obtain ⟨DL, hDL, eL⟩ := hXb j
  obtain ⟨Q, hQ1, hQ2⟩ := Function.bijective_iff_has_inverse.1 (Finite.injective_iff_bijective.1 inv.inj)
  have e : Matrix.vecMul (X j) ((d.L + DL) * (d.U + DU)) = b j := by rw [← Matrix.vecMul_vecMul, eL, eU]
  refine ⟨Matrix.of fun i q => ((d.L + DL) * (d.U + DU)) (Q i) q - A i q, fun i q => ?_, ?_⟩
  · have := Fl.composeC (arithC hp h hps hpd hdv).u_nonneg (unit_ltC hp) a4 hDL hDU i q
    rw [show n + 2 * (n + 1) = 3 * n + 2 by ring] at this
    have e : Q (d.P i) = i := hQ1 i
    rw [Matrix.of_apply, e]
    exact this
  · rw [← e]
    ext q
    simp only [Matrix.vecMul, dotProduct, Matrix.add_apply, Matrix.of_apply, add_sub_cancel]
    rw [← (Equiv.ofBijective d.P (Finite.injective_iff_bijective.1 inv.inj)).sum_comp]
    refine Finset.sum_congr rfl fun i _ => ?_
    rw [Equiv.ofBijective_apply, show Q (d.P i) = i from hQ1 i, inversePermuteCols_apply d.P inv.inj]

/-- C146: the generic `Inverse` (dimensions 1 and 5 and above): each column is the exact solution of a perturbed system. -/
theorem C146_inverse {p : ℕ} (hp : 8 ≤ p) {fl : ℝ → ℝ} (h : RoundsToNearest p fl) {ps pd : ℝ → ℝ → ℝ → ℝ → ℝ} (hps : Fl.IsProdSum fl ps)
    (hpd : Fl.IsProdDiff fl pd) {dv : ℂ → ℂ → ℂ} (hdv : AccurateDivC p dv) {ab : ℂ → ℝ} (hab : AccurateAbsC p ab)
    (A : Matrix (Fin (n + 1)) (Fin (n + 1)) ℂ) (hA : ∀ i j, IsFloatC p (A i j)) (hU : ∀ i, (Fl.decomposeLUPC dv ab (Fl.mulSubC fl ps pd) A).U i i ≠ 0)
    (b0 : Matrix (Fin (n + 1)) (Fin (n + 1)) ℂ) :
    let d := Fl.decomposeLUPC dv ab (Fl.mulSubC fl ps pd) A
    ∃ X, Fl.inverseLUPC dv ab (Fl.mulSubC fl ps pd) b0 A = some X ∧ ∀ j, ∃ D : Matrix (Fin (n + 1)) (Fin (n + 1)) ℂ,
      (∀ i q, ‖D (d.P i) q‖ ≤ roundoffC p (3 * n + 2) * ∑ t, ‖d.L i t‖ * ‖d.U t q‖) ∧
      (A + D).mulVec (fun q => X q j) = fun i => if i = j then 1 else 0 := by
  intro d
  obtain ⟨X, hX, hb⟩ := C146_lup_solve hp h hps hpd hdv hab A hA hU b0 (1 : Matrix (Fin (n + 1)) (Fin (n + 1)) ℂ)
  refine ⟨X, hX, fun j => ?_⟩
  obtain ⟨D, hD, e⟩ := hb j
  exact ⟨D, hD, by rw [e]; funext i; rw [Matrix.one_apply]⟩

/-- Non-vacuity: single precision, textbook division and modulus, and a matrix whose decompositions meet no zero pivot (the results are exact here). -/
example : let fl := flAway 24
    let ps : ℝ → ℝ → ℝ → ℝ → ℝ := fun a b c d => fl (fl (a * b) + fl (c * d))
    let pd : ℝ → ℝ → ℝ → ℝ → ℝ := fun a b c d => fl (fl (a * b) - fl (c * d))
    let A : Matrix (Fin 2) (Fin 2) ℂ := !![2, Complex.I; Complex.I, 3]
    RoundsToNearest 24 fl ∧ Fl.IsProdSum fl ps ∧ Fl.IsProdDiff fl pd ∧ AccurateDivC 24 (Fl.divC fl ps pd) ∧ AccurateAbsC 24 (Fl.absC fl ps) ∧
    (∀ i j, IsFloatC 24 (A i j)) ∧ (∃ d, Fl.decomposeLUC (Fl.divC fl ps pd) (Fl.mulSubC fl ps pd) A = some d ∧ ∀ i, d.U i i ≠ 0) ∧
    ∀ i, (Fl.decomposeLUPC (Fl.divC fl ps pd) (Fl.absC fl ps) (Fl.mulSubC fl ps pd) A).U i i ≠ 0 := by
  intro fl ps pd A
  have h : RoundsToNearest 24 fl := flAway_roundsToNearest (by norm_num)
  have hps : Fl.IsProdSum fl ps := fun _ _ _ _ => Or.inl rfl
  have hpd : Fl.IsProdDiff fl pd := fun _ _ _ _ => Or.inl rfl
  have f0 : fl 0 = 0 := h.fixed ⟨0, 0, by norm_num, by norm_num⟩
  have f1 : fl 1 = 1 := h.fixed ⟨1, 0, by norm_num, by norm_num⟩
  have f2 : fl 2 = 2 := h.fixed ⟨2, 0, by norm_num, by norm_num⟩
  have f3 : fl 3 = 3 := h.fixed ⟨3, 0, by norm_num, by norm_num⟩
  have f4 : fl 4 = 4 := h.fixed ⟨4, 0, by norm_num, by norm_num⟩
  have fh : fl (1 / 2) = 1 / 2 := h.fixed ⟨1, -1, by norm_num, by norm_num⟩
  have fn : fl (-(1 / 2)) = -(1 / 2) := h.fixed ⟨-1, -1, by norm_num, by norm_num⟩
  have fs : fl (7 / 2) = 7 / 2 := h.fixed ⟨7, -1, by norm_num, by norm_num⟩
  clear_value fl
  have q : Fl.divC fl ps pd Complex.I 2 = ⟨0, 1 / 2⟩ := by
    norm_num [Fl.divC, ps, pd, f0, f2, f4]
    norm_num at fh
    exact fh
  have o : Fl.mulSubC fl ps pd 3 Complex.I ⟨0, 1 / 2⟩ = ⟨7 / 2, 0⟩ := by
    norm_num at fh fn fs
    norm_num [Fl.mulSubC, Fl.flC, Fl.prodC, ps, pd, f0, fh, fn]
    exact fs
  have ne : (⟨7 / 2, 0⟩ : ℂ) ≠ 0 := fun e => by have := congrArg Complex.re e; norm_num at this
  have hpiv : maxElementIdx (fun i : Fin 2 => Fl.absC fl ps (A i 0)) 0 = 0 := by
    unfold maxElementIdx
    rw [forUp_step (by norm_num), forUp_ge (by norm_num)]
    have a1 : Fl.absC fl ps 2 = 2 := by
      norm_num [Fl.absC, ps, f0, f4]
      rw [show (4 : ℝ) = 2 ^ 2 by norm_num, Real.sqrt_sq (by norm_num), f2]
    have a2 : Fl.absC fl ps Complex.I = 1 := by norm_num [Fl.absC, ps, f0, f1]
    norm_num [A, a1, a2]
  refine ⟨h, hps, hpd, C146_division (by norm_num) h hps hpd, C146_modulus (by norm_num) h hps, fun i j => ?_, ?_, ?_⟩
  · fin_cases i <;> fin_cases j
    · exact ⟨⟨2, 0, by norm_num [A], by norm_num⟩, ⟨0, 0, by norm_num [A], by norm_num⟩⟩
    · exact ⟨⟨0, 0, by norm_num [A], by norm_num⟩, ⟨1, 0, by norm_num [A], by norm_num⟩⟩
    · exact ⟨⟨0, 0, by norm_num [A], by norm_num⟩, ⟨1, 0, by norm_num [A], by norm_num⟩⟩
    · exact ⟨⟨3, 0, by norm_num [A], by norm_num⟩, ⟨0, 0, by norm_num [A], by norm_num⟩⟩
  · refine ⟨_, by unfold Fl.decomposeLUC; rw [forUp_step (by norm_num), forUp_ge (by norm_num)]; simp only [Option.bind_some]; rw [if_neg (by norm_num [A])], ?_⟩
    intro i
    change (forUp 2 ((0 : Fin 2).val + 1) (fun row => Fl.luElimC (Fl.divC fl ps pd) (Fl.mulSubC fl ps pd) (0 : Fin 2) row (A 0)) ⟨1, A⟩).U i i ≠ 0
    rw [Fl.luElimC_loop]
    fin_cases i
    · norm_num [A]
    · norm_num [A, q]
      norm_num at o ne
      rw [o]
      exact ne
  · intro i
    unfold Fl.decomposeLUPC
    rw [forUp_step (by norm_num), forUp_ge (by norm_num)]
    change (Fl.lupStepC _ _ _ (0 : Fin 2) ⟨1, A, id⟩).U i i ≠ 0
    unfold Fl.lupStepC
    simp only [hpiv]
    rw [if_pos (by norm_num [A]), Fl.luElimC_loop]
    fin_cases i
    · norm_num [Matrix.updateRow_apply, A]
    · norm_num [Matrix.updateRow_apply, A, q]
      norm_num at o ne
      rw [o]
      exact ne

end Mathter.Props
