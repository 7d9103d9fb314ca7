import Verif.Lemmas.RoundedComplexQR
import Verif.Props.RoundedComplexLinear
import Verif.Props.RoundedComplexMatrix

/-!
# C150: the QR decomposition of complex matrices is backward stable

Lengths are Euclidean (`normC`), errors are relative to the columns of the matrix.
-/

namespace Mathter.Props
open Mathter
variable {r n m : ℕ} {fl : ℝ → ℝ}

/-- The quotient of a complex number by a real one has a relative error of at most six rounding errors. -/
def AccurateDivR (p : ℕ) (dv : ℂ → ℝ → ℂ) : Prop := ∀ z (s : ℝ), s ≠ 0 → ‖dv z s - z / (s : ℂ)‖ ≤ 6 * (2 : ℝ) ^ (-(p : ℤ)) * ‖z / (s : ℂ)‖

/-- C150: the quotient part by part and the textbook division by the number with imaginary part zero are both accurate in this sense. -/
theorem C150_division {p : ℕ} (hp : 8 ≤ p) (h : RoundsToNearest p fl) {ps pd : ℝ → ℝ → ℝ → ℝ → ℝ} (hps : Fl.IsProdSum fl ps) (hpd : Fl.IsProdDiff fl pd) :
    AccurateDivR p (fun z s => Fl.flC fl (z / (s : ℂ))) ∧ AccurateDivR p (fun z s => Fl.divC fl ps pd z (s : ℂ)) := by
  refine ⟨fun z s _ => ?_, fun z s hs => (C146_division hp h hps hpd z (s : ℂ) (by exact_mod_cast hs)).2⟩
  have hr := h.rounding (by omega : 1 ≤ p)
  have := complex_norm_fl hr (z / (s : ℂ))
  have := mul_nonneg hr.u_nonneg (norm_nonneg (z / (s : ℂ)))
  linarith

private theorem pow_le11 {u : ℝ} (hu : 0 ≤ u) : ∀ N : ℕ, N * u ≤ 1 / 11 → (1 + u) ^ N - 1 ≤ 11 / 10 * (N * u) := by
  intro N
  induction N with
  | zero => simp
  | succ N ih =>
    intro hN
    push_cast at hN
    have i := ih (by linarith)
    rw [pow_succ]
    push_cast
    have : N * u * u ≤ 1 / 11 * u := mul_le_mul_of_nonneg_right (by linarith) hu
    nlinarith

private theorem pow_le2 {x : ℝ} (hx : 0 ≤ x) : ∀ k : ℕ, k * x ≤ 1 / 2 → (1 + x) ^ k - 1 ≤ 2 * (k * x) := by
  intro k
  induction k with
  | zero => simp
  | succ k ih =>
    intro hk
    push_cast at hk
    have i := ih (by linarith)
    rw [pow_succ]
    push_cast
    have : k * x * x ≤ 1 / 2 * x := mul_le_mul_of_nonneg_right (by linarith) hx
    nlinarith

/-- C112: `LengthPrecise` of complex vectors has a small relative error. -/
theorem C112_lengthPrecise {p : ℕ} (h : Rounding fl ((2 : ℝ) ^ (-(p : ℤ)))) {ps pd : ℝ → ℝ → ℝ → ℝ → ℝ} (hps : Fl.IsProdSum fl ps) (hpd : Fl.IsProdDiff fl pd)
    {dv : ℂ → ℝ → ℂ} (hdv : AccurateDivR p dv) (c : Cfg) (pk : Bool) {lo hi : ℝ} (hlo : 0 < lo) (hh : lo ≤ hi) (conv : Bool)
    (tb : RTree (batchSize (r + 1) false)) (ts : RTree (r + 1 + 1)) (htb : tb.Valid) (hts : ts.Valid) (x : Fin (r + 1) → ℂ) :
    |Fl.lengthPreciseC c pk fl ps pd dv lo hi conv tb ts x - normC x| ≤
      ((1 + (2 : ℝ) ^ (-(p : ℤ))) ^ (r + 4) * (1 + 6 * (2 : ℝ) ^ (-(p : ℤ))) - 1) * normC x := by
  have hu := h.u_nonneg
  have g1 := h.one_le (r + 3)
  unfold AccurateDivR at hdv
  unfold Fl.lengthPreciseC
  have hs := stdClamp_pos (scaleElements x) lo hi hlo hh
  set s := stdClamp (scaleElements x) lo hi
  clear_value s
  dsimp only
  have e1 := C112_length h hps hpd conv tb ts htb hts (Vec.ofFn (fun i => dv (x i) s) : Vec c ℂ (r + 1) pk)
  simp only [Vec.get_ofFn] at e1
  change |_ - normC (fun i => dv (x i) s)| ≤ _ * normC (fun i => dv (x i) s) at e1
  have e2 := h.err (Fl.lengthC fl ps pd conv tb ts (Vec.ofFn (fun i => dv (x i) s) : Vec c ℂ (r + 1) pk) * s)
  have e3 : |normC (fun i => dv (x i) s) - normC x / s| ≤ 6 * (2 : ℝ) ^ (-(p : ℤ)) * (normC x / s) := by
    have a : normC (fun i => x i / (s : ℂ)) = normC x / s := by
      have := normC_smul ((s : ℂ)⁻¹) x
      rw [norm_inv, Complex.norm_of_nonneg hs.le] at this
      rw [div_eq_inv_mul, ← this]
      congr 1; funext i; rw [div_eq_inv_mul]
    rw [← a]
    exact (normC_sub_le _ _).trans (normC_le_mul (by positivity) fun i => hdv _ _ hs.ne')
  generalize Fl.lengthC fl ps pd conv tb ts (Vec.ofFn (fun i => dv (x i) s) : Vec c ℂ (r + 1) pk) = l at *
  have hY := normC_nonneg (fun i => dv (x i) s)
  generalize normC (fun i => dv (x i) s) = Y at *
  have hX := normC_nonneg x
  set u := (2 : ℝ) ^ (-(p : ℤ))
  clear_value u
  change |l - Y| ≤ ((1 + u) ^ (r + 3) - 1) * Y at e1
  rw [pow_succ _ (r + 3)]
  generalize (1 + u) ^ (r + 3) = g at *
  obtain ⟨N, hN⟩ : ∃ N, N = normC x / s := ⟨_, rfl⟩
  have hXN : normC x = N * s := by rw [hN]; field_simp
  rw [← hN] at e3
  rw [hXN] at hX ⊢
  have hN0 : 0 ≤ N := by rw [hN]; exact div_nonneg (normC_nonneg _) hs.le
  have a1 : Y ≤ (1 + 6 * u) * N := by have := (abs_le.1 e3).2; linarith
  have a2 : |l - N| ≤ (g * (1 + 6 * u) - 1) * N := by
    have t := abs_add_le (l - Y) (Y - N)
    rw [sub_add_sub_cancel] at t
    have := mul_le_mul_of_nonneg_left a1 (by linarith : 0 ≤ g - 1)
    linarith
  have a3 : |l| ≤ g * (1 + 6 * u) * N := by
    have := abs_sub_abs_le_abs_sub l N
    rw [abs_of_nonneg hN0] at this
    linarith
  rw [abs_mul, abs_of_pos hs] at e2
  have t := abs_add_le (fl (l * s) - l * s) (l * s - N * s)
  rw [sub_add_sub_cancel, ← sub_mul, abs_mul (l - N), abs_of_pos hs] at t
  have b1 := mul_le_mul_of_nonneg_right a2 hs.le
  have b2 := mul_le_mul_of_nonneg_left (mul_le_mul_of_nonneg_right a3 hs.le) hu
  linarith

/-- C112: `DistancePrecise` of complex vectors has a small relative error, however close the points are. -/
theorem C112_distancePrecise {p : ℕ} (h : Rounding fl ((2 : ℝ) ^ (-(p : ℤ)))) {ps pd : ℝ → ℝ → ℝ → ℝ → ℝ} (hps : Fl.IsProdSum fl ps) (hpd : Fl.IsProdDiff fl pd)
    {dv : ℂ → ℝ → ℂ} (hdv : AccurateDivR p dv) (c : Cfg) (pk : Bool) {lo hi : ℝ} (hlo : 0 < lo) (hh : lo ≤ hi) (conv : Bool)
    (tb : RTree (batchSize (r + 1) false)) (ts : RTree (r + 1 + 1)) (htb : tb.Valid) (hts : ts.Valid) (a b : Fin (r + 1) → ℂ) :
    |Fl.distancePreciseC c pk fl ps pd dv lo hi conv tb ts a b - normC (fun i => a i - b i)| ≤
      ((1 + (2 : ℝ) ^ (-(p : ℤ))) ^ (r + 5) * (1 + 6 * (2 : ℝ) ^ (-(p : ℤ))) - 1) * normC (fun i => a i - b i) := by
  have hu := h.u_nonneg
  have g1 := h.one_le (r + 4)
  have e1 := C112_lengthPrecise h hps hpd hdv c pk hlo hh conv tb ts htb hts fun i => Fl.flC fl (a i - b i)
  have e2 := (normC_sub_le (fun i => Fl.flC fl (a i - b i)) (fun i => a i - b i)).trans (normC_le_mul hu fun i => complex_norm_fl h (a i - b i))
  unfold Fl.distancePreciseC
  have hN := normC_nonneg fun i => a i - b i
  generalize Fl.lengthPreciseC c pk fl ps pd dv lo hi conv tb ts (fun i => Fl.flC fl (a i - b i)) = l at *
  generalize normC (fun i => Fl.flC fl (a i - b i)) = Y at *
  generalize normC (fun i => a i - b i) = N at *
  set u := (2 : ℝ) ^ (-(p : ℤ))
  clear_value u
  rw [pow_succ _ (r + 4)]
  generalize (1 + u) ^ (r + 4) = g at *
  have t := abs_add_le (l - Y) (Y - N)
  rw [sub_add_sub_cancel] at t
  have a1 : Y ≤ (1 + u) * N := by have := (abs_le.1 e2).2; linarith
  have g0 : 0 ≤ g * (1 + 6 * u) - 1 := by nlinarith
  have := mul_le_mul_of_nonneg_left a1 g0
  nlinarith

/-- Two dimensions and single precision, with the quotients part by part. -/
example (c : Cfg) (pk conv : Bool) (tb : RTree (batchSize 2 false)) (ts : RTree 3) (htb : tb.Valid) (hts : ts.Valid) :
    let fl := flAway 24
    let ps := fun a b d e => fl (fl (a * b) + fl (d * e))
    let pd := fun a b d e => fl (fl (a * b) - fl (d * e))
    |Fl.distancePreciseC (r := 1) c pk fl ps pd (fun z s => Fl.flC fl (z / (s : ℂ))) (2 ^ (-126 : ℤ)) (2 ^ 127) conv tb ts ![1, Complex.I] ![0, 1] -
        normC (fun i => (![1, Complex.I] : Fin 2 → ℂ) i - (![0, 1] : Fin 2 → ℂ) i)| ≤ 13 * (2 : ℝ) ^ (-24 : ℤ) * normC (fun i => (![1, Complex.I] : Fin 2 → ℂ) i - (![0, 1] : Fin 2 → ℂ) i) := by
  intro fl ps pd
  have hfl : RoundsToNearest 24 fl := flAway_roundsToNearest (by norm_num)
  have hps : Fl.IsProdSum fl ps := fun _ _ _ _ => Or.inl rfl
  have hpd : Fl.IsProdDiff fl pd := fun _ _ _ _ => Or.inl rfl
  refine (C112_distancePrecise (r := 1) (hfl.rounding (by norm_num)) hps hpd (C150_division (by norm_num) hfl hps hpd).1 c pk (by positivity) (by norm_num) conv tb ts htb hts
    _ _).trans (mul_le_mul_of_nonneg_right (by norm_num) (normC_nonneg _))

/-- The library's operations have a relative error of at most `4 (d + 3)` rounding errors. -/
private theorem arithQ {p : ℕ} (hp : 8 ≤ p) (h : RoundsToNearest p fl) {ps pd : ℝ → ℝ → ℝ → ℝ → ℝ} (hps : Fl.IsProdSum fl ps) (hpd : Fl.IsProdDiff fl pd)
    {op : ℂ → ℂ → ℂ → ℂ} (hop : Fl.IsMulAddC fl ps pd op) {ds dv : ℂ → ℝ → ℂ} (hds : AccurateDivR p ds) (hdv : AccurateDivR p dv) {ab : ℂ → ℝ}
    (hab : AccurateAbsC p ab) (c : Cfg) (pk conv : Bool) {lo hi : ℝ} (hlo : 0 < lo) (hh : lo ≤ hi) (tb : RTree (batchSize (r + 1) false)) (ts : RTree (r + 1 + 1))
    (htb : tb.Valid) (hts : ts.Valid) (hsmall : 480 * ((r + 1 : ℕ) + 3) * (2 : ℝ) ^ (-(p : ℤ)) ≤ 1) :
    Fl.ArithQ (4 * ((r + 1 : ℕ) + 3) * (2 : ℝ) ^ (-(p : ℤ))) fl (Fl.prodC ps pd) op ds dv ab (Fl.lengthPreciseC c pk fl ps pd dv lo hi conv tb ts) := by
  have hr := h.rounding (by omega : 1 ≤ p)
  have hL := C112_lengthPrecise hr hps hpd hdv c pk hlo hh conv tb ts htb hts
  have hrow := complex_norm_accum (k := r + 1) hr hps hpd hop
  have hprod := complex_norm_prod hr hps hpd
  have hrnd := complex_norm_fl hr
  unfold AccurateDivR at hds hdv
  unfold AccurateAbsC at hab
  have u0 := hr.u_nonneg
  set u := (2 : ℝ) ^ (-(p : ℤ))
  clear_value u
  have hd : (1 : ℝ) ≤ ((r + 1 : ℕ) : ℝ) := by exact_mod_cast Nat.le_add_left 1 r
  have ud : u ≤ ((r + 1 : ℕ) : ℝ) * u := le_mul_of_one_le_left u0 hd
  have k1 := pow_le11 u0 (2 * (r + 1)) (by push_cast at hsmall ud ⊢; linarith)
  have k2 := pow_le11 u0 (r + 10) (by push_cast at hsmall ud ⊢; linarith)
  have k3 := one_add_mul_le_pow (a := u) (by linarith) 6
  have gn := hr.one_le (r + 4)
  have e10 : (1 + u) ^ (r + 10) = (1 + u) ^ (r + 4) * (1 + u) ^ 6 := by rw [← pow_add]
  generalize hD : ((r + 1 : ℕ) : ℝ) = d at *
  have hru : (r : ℝ) = d - 1 := by rw [← hD]; push_cast; ring
  push_cast at k1 k2
  rw [hru] at k1 k2
  have uu : u * u ≤ 1 / 1920 * u := mul_le_mul_of_nonneg_right (by linarith) u0
  refine ⟨by positivity, by linarith, fun z => (hrnd z).trans (mul_le_mul_of_nonneg_right (by linarith) (norm_nonneg _)),
    fun a b => (hprod a b).trans (mul_le_mul_of_nonneg_right (by nlinarith) (norm_nonneg _)), ?_, fun z hz => ?_, fun z s hs => ?_, fun x => ?_, fun a b => ?_⟩
  · have := hab 0
    rw [norm_zero, mul_zero, sub_zero] at this
    exact abs_nonpos_iff.1 this
  · have hn := norm_pos_iff.2 hz
    have a0 := hab z
    have a1 : (1 - 4 * u) * ‖z‖ ≤ ab z := by have := (abs_le.1 a0).1; linarith
    have a2 : 0 < ab z := lt_of_lt_of_le (mul_pos (by linarith) hn) a1
    refine ⟨a2.ne', ?_⟩
    have b0 := hds z (ab z) a2.ne'
    have hac : (ab z : ℂ) ≠ 0 := by exact_mod_cast a2.ne'
    have hnc : (‖z‖ : ℂ) ≠ 0 := by exact_mod_cast hn.ne'
    have b1 : ‖z / (ab z : ℂ)‖ = ‖z‖ / ab z := by rw [norm_div, Complex.norm_of_nonneg a2.le]
    have b2 : ‖z / (ab z : ℂ) - z / (‖z‖ : ℂ)‖ = |ab z - ‖z‖| / ab z := by
      have : z / (ab z : ℂ) - z / (‖z‖ : ℂ) = z / (‖z‖ : ℂ) * (((‖z‖ - ab z : ℝ) : ℂ) / (ab z : ℂ)) := by
        push_cast; field_simp
      rw [this, norm_mul, norm_div, norm_div, Complex.norm_of_nonneg hn.le, Complex.norm_of_nonneg a2.le, div_self hn.ne', one_mul, Complex.norm_real, Real.norm_eq_abs,
        abs_sub_comm]
    have t := norm_add_le (ds z (ab z) - z / (ab z : ℂ)) (z / (ab z : ℂ) - z / (‖z‖ : ℂ))
    rw [sub_add_sub_cancel, b2] at t
    rw [b1] at b0
    have t1 : 6 * u * (‖z‖ / ab z) + |ab z - ‖z‖| / ab z ≤ 11 * u := by
      rw [← mul_div_assoc, ← add_div, div_le_iff₀ a2]
      have := mul_le_mul_of_nonneg_left a1 (by linarith : 0 ≤ 11 * u)
      have : u * u * ‖z‖ ≤ 1 / 1920 * u * ‖z‖ := mul_le_mul_of_nonneg_right uu hn.le
      have := mul_nonneg u0 hn.le
      linarith
    linarith
  · exact (hdv z s hs).trans (mul_le_mul_of_nonneg_right (by linarith) (norm_nonneg _))
  · refine (hL x).trans (mul_le_mul_of_nonneg_right ?_ (normC_nonneg _))
    have : (1 + u) ^ (r + 4) * (1 + 6 * u) ≤ (1 + u) ^ (r + 4) * (1 + u) ^ 6 := mul_le_mul_of_nonneg_left (by push_cast at k3; linarith) (by linarith)
    linarith
  · refine (hrow a b).trans ?_
    rw [← mul_assoc]
    exact mul_le_mul_of_nonneg_right (by linarith) (Finset.sum_nonneg fun q _ => by positivity)

/-- Extending the columns of `R` by zeros. -/
private theorem mul_topC (hrn : n ≤ r) (P : Matrix (Fin r) (Fin r) ℂ) (R : Matrix (Fin n) (Fin m) ℂ) (X : Matrix (Fin r) (Fin m) ℂ)
    (hX : ∀ i j, X i j = if h : i.val < n then R ⟨i.val, h⟩ j else 0) :
    (Matrix.of fun i (j : Fin n) => P i (Fin.castLE hrn j)) * R = P * X := by
  ext i j
  rw [Matrix.mul_apply, Matrix.mul_apply]
  apply Finset.sum_of_injOn (Fin.castLE hrn)
  · intro a _ b _ hab; exact Fin.castLE_injective hrn hab
  · intro a _; simp
  · intro q _ hq
    have : n ≤ q.val := by
      by_contra hlt
      exact hq ⟨⟨q.val, by omega⟩, by simp, Fin.ext rfl⟩
    rw [hX, dif_neg (by omega), mul_zero]
  · intro q _
    rw [hX, dif_pos (show (Fin.castLE hrn q).val < n from q.isLt)]; rfl

private theorem backward {y : ℝ} {mul : ℂ → ℂ → ℂ} {op : ℂ → ℂ → ℂ → ℂ} {ds dv : ℂ → ℝ → ℂ} {ab : ℂ → ℝ} {len : (Fin (r + 1) → ℂ) → ℝ}
    (h : Fl.ArithQ y fl mul op ds dv ab len) {lo : ℝ} (hlo : 0 < lo) (hrn : n + 1 ≤ r + 1) (A : Matrix (Fin (r + 1)) (Fin (n + 1)) ℂ) :
    let d := Fl.decomposeQRC fl mul op ds dv ab len lo hrn A
    (∀ i j, j < i → d.R i j = 0) ∧
    ∃ Q : Matrix (Fin (r + 1)) (Fin (n + 1)) ℂ, Q.conjTranspose * Q = 1 ∧
      (∀ j, normC (fun i => (Q * d.R) i j - A i j) ≤ ((1 + 2 * ((1 + 60 * y) ^ (n + 1) - 1)) * (1 + y) ^ 2 - 1) * normC (fun i => A i j)) ∧
      ∀ i, normC (fun j => d.Q i j - Q i j) ≤ (1 + 60 * y) ^ (n + 1) - 1 := by
  intro d
  have hu := h.y_nonneg
  have hdef : d = Fl.decomposeQRC fl mul op ds dv ab len lo hrn A := rfl
  clear_value d
  unfold Fl.decomposeQRC at hdef
  have hsc := scaler_pos lo hlo (matScaleElements A)
  set sc : ℝ := max lo (matScaleElements A)
  clear_value sc
  have hscc : (sc : ℂ) ≠ 0 := by exact_mod_cast hsc.ne'
  have hscn : ‖(sc : ℂ)‖ = sc := Complex.norm_of_nonneg hsc.le
  dsimp only at hdef
  set A0 : Matrix (Fin (r + 1)) (Fin (n + 1)) ℂ := Matrix.of fun i j => dv (A i j) sc with hA0
  obtain ⟨P, hP, hR, hQ, hL⟩ := Fl.qrC_err h hlo le_rfl hrn A0
  set s := forUp (n + 1) 0 (Fl.qrStepC fl mul op ds dv ab len hrn) (⟨A0, 1⟩ : QRState ℂ (r + 1) (n + 1))
  clear_value s
  have hκ : 0 ≤ (1 + 60 * y) ^ (n + 1) - 1 := (normC_nonneg _).trans (hQ 0)
  generalize (1 + 60 * y) ^ (n + 1) - 1 = κ at *
  have f0 : Fl.flC fl 0 = 0 := by
    have := h.rnd 0
    rw [norm_zero, mul_zero, sub_zero] at this
    exact norm_le_zero_iff.1 this
  obtain ⟨zl1, zl2⟩ : (∀ (i : Fin (r + 1)) (j : Fin (n + 1)), j.val < i.val → i.val < n + 1 → zeroLower hrn s.R i j = 0) ∧
      ∀ (i : Fin (r + 1)) (j : Fin (n + 1)), ¬ (j.val < i.val ∧ i.val < n + 1) → zeroLower hrn s.R i j = s.R i j := by
    refine ⟨fun i j h1 h2 => ?_, fun i j h1 => ?_⟩
    · rw [zeroLower_apply, if_pos ⟨h1, h2⟩]
    · rw [zeroLower_apply, if_neg h1]
  have hdR : ∀ i j, d.R i j = if j < i then 0 else Fl.flC fl ((sc : ℂ) * s.R (Fin.castLE hrn i) j) := by
    intro i j
    rw [hdef]
    simp only [Matrix.of_apply]
    have hi := i.isLt
    by_cases hji : j < i
    · rw [if_pos hji, zl1 _ _ hji hi, mul_zero, f0]
    · rw [if_neg hji, zl2 _ _ fun h' => hji h'.1]
  have hdQ : ∀ i j, d.Q i j = star (s.QT (Fin.castLE hrn j) i) := by intro i j; rw [hdef]; rfl
  clear hdef
  have hP' : P * P.conjTranspose = 1 := mul_eq_one_comm.1 hP
  refine ⟨fun i j hij => by rw [hdR, if_pos hij], Matrix.of fun i j => star (P (Fin.castLE hrn j) i), ?_, fun j => ?_, fun i => ?_⟩
  · -- orthonormal
    ext i j
    have := congrFun (congrFun hP' (Fin.castLE hrn i)) (Fin.castLE hrn j)
    rw [Matrix.mul_apply] at this ⊢
    simp only [Matrix.conjTranspose_apply, Matrix.of_apply, star_star] at this ⊢
    rw [this, Matrix.one_apply, Matrix.one_apply]
    simp only [(Fin.castLE_injective hrn).eq_iff]
  · -- reconstruction
    set X : Matrix (Fin (r + 1)) (Fin (n + 1)) ℂ := Matrix.of fun i j => if h : i.val < n + 1 then d.R ⟨i.val, h⟩ j else 0 with hX
    have e1 := mul_topC hrn P.conjTranspose d.R X (fun i j => rfl)
    have e2 : (Matrix.of fun i j => star (P (Fin.castLE hrn j) i)) = (Matrix.of fun i (j : Fin (n + 1)) => P.conjTranspose i (Fin.castLE hrn j)) := rfl
    rw [e2, e1]
    have hP'' : P.conjTranspose.conjTranspose * P.conjTranspose = 1 := by rw [Matrix.conjTranspose_conjTranspose]; exact hP'
    have e3 : normC (fun i => (P.conjTranspose * X) i j - A i j) = normC (fun i => X i j - (P * A) i j) := by
      have := normC_mul_col hP'' (X - P * A) j
      rw [Matrix.mul_sub, ← Matrix.mul_assoc, hP, Matrix.one_mul] at this
      exact this
    rw [e3]
    -- `sc * R` against `P * A`
    have hup : ∀ i, X i j = if j.val < i.val then 0 else Fl.flC fl ((sc : ℂ) * s.R i j) := by
      intro i
      simp only [hX, Matrix.of_apply]
      have hj := j.isLt
      by_cases hi : i.val < n + 1
      · rw [dif_pos hi, hdR]
        rfl
      · rw [dif_neg hi, if_pos (by omega)]
    have hA0n : normC (fun i => (sc : ℂ) * A0 i j - A i j) ≤ y * normC (fun i => A i j) := normC_le_mul hu fun i => by
      have := h.quot (A i j) sc hsc.ne'
      have e : (sc : ℂ) * A0 i j - A i j = (sc : ℂ) * (dv (A i j) sc - A i j / (sc : ℂ)) := by
        rw [hA0, Matrix.of_apply]; field_simp
      have e' : ‖A i j‖ = sc * ‖A i j / (sc : ℂ)‖ := by rw [norm_div, hscn]; field_simp
      rw [e, e', norm_mul, hscn, mul_left_comm]
      exact mul_le_mul_of_nonneg_left this hsc.le
    have hA0s : sc * normC (fun i => A0 i j) ≤ (1 + y) * normC (fun i => A i j) := by
      have t := normC_add_le (fun i => (sc : ℂ) * A0 i j - A i j) (fun i => A i j)
      simp only [sub_add_cancel] at t
      rw [normC_smul, hscn] at t
      linarith
    -- the exact upper triangle of the state
    have t1 : normC (fun i => (if j.val < i.val then 0 else s.R i j) - (P * A0) i j) ≤ 2 * κ * normC (fun i => A0 i j) := by
      have t := normC_add_le (fun i : Fin (r + 1) => -(if j.val < i.val then s.R i j else 0)) (fun i => s.R i j - (P * A0) i j)
      rw [normC_neg fun i : Fin (r + 1) => if j.val < i.val then s.R i j else 0] at t
      have e : (fun i : Fin (r + 1) => -(if j.val < i.val then s.R i j else 0) + (s.R i j - (P * A0) i j)) =
          fun i => (if j.val < i.val then 0 else s.R i j) - (P * A0) i j := by
        funext i; split <;> ring
      rw [e] at t
      linarith [hR j, hL j j.isLt]
    have t2 : normC (fun i => (if j.val < i.val then 0 else s.R i j)) ≤ (1 + 2 * κ) * normC (fun i => A0 i j) := by
      have t := normC_add_le (fun i => (if j.val < i.val then 0 else s.R i j) - (P * A0) i j) (fun i => (P * A0) i j)
      simp only [sub_add_cancel] at t
      rw [normC_mul_col hP] at t
      linarith
    have t3 : normC (fun i => X i j - (sc : ℂ) * (if j.val < i.val then 0 else s.R i j)) ≤ y * (sc * normC (fun i => (if j.val < i.val then 0 else s.R i j))) := by
      have := normC_smul (sc : ℂ) fun i => (if j.val < i.val then 0 else s.R i j)
      rw [hscn] at this
      rw [← this]
      refine normC_le_mul hu fun i => ?_
      rw [hup]
      split
      · simp
      · exact h.rnd _
    have t4 := normC_add_le (fun i => X i j - (sc : ℂ) * (if j.val < i.val then 0 else s.R i j))
      (fun i => (sc : ℂ) * ((if j.val < i.val then 0 else s.R i j) - (P * A0) i j))
    have t5 := normC_add_le (fun i => X i j - (sc : ℂ) * (if j.val < i.val then 0 else s.R i j) + (sc : ℂ) * ((if j.val < i.val then 0 else s.R i j) - (P * A0) i j))
      (fun i => (P * ((sc : ℂ) • A0 - A)) i j)
    rw [normC_mul_col hP] at t5
    have e5 : (fun i => X i j - (sc : ℂ) * (if j.val < i.val then 0 else s.R i j) + (sc : ℂ) * ((if j.val < i.val then 0 else s.R i j) - (P * A0) i j) +
        (P * ((sc : ℂ) • A0 - A)) i j) = fun i => X i j - (P * A) i j := by
      funext i
      rw [Matrix.mul_sub, Matrix.mul_smul, Matrix.sub_apply, Matrix.smul_apply, smul_eq_mul]; ring
    rw [e5] at t5
    change _ ≤ _ + normC (fun i => (sc : ℂ) * A0 i j - A i j) at t5
    rw [normC_smul, hscn] at t4
    have hN := normC_nonneg fun i => A i j
    have t6 : sc * normC (fun i => (if j.val < i.val then 0 else s.R i j)) ≤ (1 + 2 * κ) * (sc * normC (fun i => A0 i j)) := by
      have := mul_le_mul_of_nonneg_left t2 hsc.le
      linarith
    have t7 : sc * normC (fun i => (if j.val < i.val then 0 else s.R i j) - (P * A0) i j) ≤ 2 * κ * (sc * normC (fun i => A0 i j)) := by
      have := mul_le_mul_of_nonneg_left t1 hsc.le
      linarith
    have t8 : y * (sc * normC (fun i => (if j.val < i.val then 0 else s.R i j))) ≤ y * ((1 + 2 * κ) * ((1 + y) * normC (fun i => A i j))) :=
      mul_le_mul_of_nonneg_left (t6.trans (mul_le_mul_of_nonneg_left hA0s (by linarith))) hu
    have t9 : 2 * κ * (sc * normC (fun i => A0 i j)) ≤ 2 * κ * ((1 + y) * normC (fun i => A i j)) := mul_le_mul_of_nonneg_left hA0s (by linarith)
    linarith
  · -- the computed `Q`
    refine le_trans ?_ (hQ i)
    unfold normC norm2
    refine Real.sqrt_le_sqrt ?_
    simp only [hdQ, Matrix.of_apply, ← star_sub, norm_star]
    have := Finset.sum_le_sum_of_subset_of_nonneg (f := fun q => ‖s.QT q i - P q i‖ ^ 2)
      (Finset.subset_univ (Finset.univ.map (Fin.castLEEmb hrn))) (fun _ _ _ => sq_nonneg _)
    rw [Finset.sum_map] at this
    exact this

/-- What rounding adds up to in the QR decomposition of a matrix with `d` rows and `k` columns, up to a factor: the number of operations behind one element. -/
noncomputable def qrRoundoffC (p d k : ℕ) : ℝ := k * (d + 3) * (2 : ℝ) ^ (-(p : ℤ))

/-- C150: `DecomposeQR` of any complex matrix that is not too large for the precision, rounded after every operation, whatever the vectorisation and the order of
summation, whether or not products and sums are fused, and however the modulus and the quotients by real numbers are evaluated, as long as they are accurate to a few
units. The computed `R` is upper triangular, and there is a matrix `Q` with exactly orthonormal columns such that `Q * R` is the given matrix up to a small multiple of
each of its columns, and the computed `Q` is close to that matrix. -/
theorem C150_backward {p : ℕ} (hp : 8 ≤ p) (h : RoundsToNearest p fl) {ps pd : ℝ → ℝ → ℝ → ℝ → ℝ} (hps : Fl.IsProdSum fl ps) (hpd : Fl.IsProdDiff fl pd)
    {op : ℂ → ℂ → ℂ → ℂ} (hop : Fl.IsMulAddC fl ps pd op) {ds dv : ℂ → ℝ → ℂ} (hds : AccurateDivR p ds) (hdv : AccurateDivR p dv) {ab : ℂ → ℝ}
    (hab : AccurateAbsC p ab) (c : Cfg) (pk conv : Bool) {lo hi : ℝ} (hlo : 0 < lo) (hh : lo ≤ hi) (tb : RTree (batchSize (r + 1) false)) (ts : RTree (r + 1 + 1))
    (htb : tb.Valid) (hts : ts.Valid) (hrn : n + 1 ≤ r + 1) (hsmall : 480 * qrRoundoffC p (r + 1) (n + 1) ≤ 1) (A : Matrix (Fin (r + 1)) (Fin (n + 1)) ℂ) :
    let d := Fl.decomposeQRC fl (Fl.prodC ps pd) op ds dv ab (Fl.lengthPreciseC c pk fl ps pd dv lo hi conv tb ts) lo hrn A
    (∀ i j, j < i → d.R i j = 0) ∧
    ∃ Q : Matrix (Fin (r + 1)) (Fin (n + 1)) ℂ, Q.conjTranspose * Q = 1 ∧
      (∀ j, normC (fun i => (Q * d.R) i j - A i j) ≤ 1000 * qrRoundoffC p (r + 1) (n + 1) * normC (fun i => A i j)) ∧
      ∀ i, normC (fun j => d.Q i j - Q i j) ≤ 480 * qrRoundoffC p (r + 1) (n + 1) := by
  have u0 : (0 : ℝ) ≤ (2 : ℝ) ^ (-(p : ℤ)) := by positivity
  have hk : (1 : ℝ) ≤ ((n + 1 : ℕ) : ℝ) := by exact_mod_cast Nat.le_add_left 1 n
  have hW0 : 0 ≤ (((r + 1 : ℕ) : ℝ) + 3) * (2 : ℝ) ^ (-(p : ℤ)) := by positivity
  have hW : (((r + 1 : ℕ) : ℝ) + 3) * (2 : ℝ) ^ (-(p : ℤ)) ≤ qrRoundoffC p (r + 1) (n + 1) := by
    unfold qrRoundoffC
    rw [mul_assoc]
    exact le_mul_of_one_le_left hW0 hk
  have hq := arithQ hp h hps hpd hop hds hdv hab c pk conv hlo hh tb ts htb hts (by linarith)
  obtain ⟨g1, Q, g2, g3, g4⟩ := backward hq hlo hrn A
  have hκ := pow_le2 (x := 60 * (4 * (((r + 1 : ℕ) : ℝ) + 3) * (2 : ℝ) ^ (-(p : ℤ)))) (by positivity) (n + 1) (by unfold qrRoundoffC at hsmall; linarith)
  have e : 2 * (((n + 1 : ℕ) : ℝ) * (60 * (4 * (((r + 1 : ℕ) : ℝ) + 3) * (2 : ℝ) ^ (-(p : ℤ))))) = 480 * qrRoundoffC p (r + 1) (n + 1) := by unfold qrRoundoffC; ring
  rw [e] at hκ
  refine ⟨g1, Q, g2, fun j => (g3 j).trans (mul_le_mul_of_nonneg_right ?_ (normC_nonneg _)), fun i => (g4 i).trans hκ⟩
  have hκ0 : 0 ≤ (1 + 60 * (4 * (((r + 1 : ℕ) : ℝ) + 3) * (2 : ℝ) ^ (-(p : ℤ)))) ^ (n + 1) - 1 := (normC_nonneg _).trans (g4 0)
  have hy0 := hq.y_nonneg
  have hy : 4 * (((r + 1 : ℕ) : ℝ) + 3) * (2 : ℝ) ^ (-(p : ℤ)) ≤ 4 * qrRoundoffC p (r + 1) (n + 1) := by linarith
  generalize (1 + 60 * (4 * (((r + 1 : ℕ) : ℝ) + 3) * (2 : ℝ) ^ (-(p : ℤ)))) ^ (n + 1) - 1 = κ at *
  generalize 4 * (((r + 1 : ℕ) : ℝ) + 3) * (2 : ℝ) ^ (-(p : ℤ)) = y at *
  generalize qrRoundoffC p (r + 1) (n + 1) = K at *
  have s1 : (1 + y) ^ 2 ≤ 1 + 9 * K := by nlinarith
  have s2 : (1 + 2 * κ) * (1 + y) ^ 2 ≤ (1 + 960 * K) * (1 + 9 * K) := mul_le_mul (by linarith) s1 (by positivity) (by linarith)
  nlinarith

/-- C150: `DecomposeLQ` likewise, row by row. -/
theorem C150_lq {p : ℕ} (hp : 8 ≤ p) (h : RoundsToNearest p fl) {ps pd : ℝ → ℝ → ℝ → ℝ → ℝ} (hps : Fl.IsProdSum fl ps) (hpd : Fl.IsProdDiff fl pd)
    {op : ℂ → ℂ → ℂ → ℂ} (hop : Fl.IsMulAddC fl ps pd op) {ds dv : ℂ → ℝ → ℂ} (hds : AccurateDivR p ds) (hdv : AccurateDivR p dv) {ab : ℂ → ℝ}
    (hab : AccurateAbsC p ab) (c : Cfg) (pk conv : Bool) {lo hi : ℝ} (hlo : 0 < lo) (hh : lo ≤ hi) (tb : RTree (batchSize (n + 1) false)) (ts : RTree (n + 1 + 1))
    (htb : tb.Valid) (hts : ts.Valid) (hrn : r + 1 ≤ n + 1) (hsmall : 480 * qrRoundoffC p (n + 1) (r + 1) ≤ 1) (A : Matrix (Fin (r + 1)) (Fin (n + 1)) ℂ) :
    let d := Fl.decomposeLQC fl (Fl.prodC ps pd) op ds dv ab (Fl.lengthPreciseC c pk fl ps pd dv lo hi conv tb ts) lo hrn A
    (∀ i j, i < j → d.L i j = 0) ∧
    ∃ Q : Matrix (Fin (r + 1)) (Fin (n + 1)) ℂ, Q * Q.conjTranspose = 1 ∧
      (∀ i, normC (fun j => (d.L * Q) i j - A i j) ≤ 1000 * qrRoundoffC p (n + 1) (r + 1) * normC (fun j => A i j)) ∧
      ∀ j, normC (fun i => d.Q i j - Q i j) ≤ 480 * qrRoundoffC p (n + 1) (r + 1) := by
  obtain ⟨h0, Q, hQ, hR, hE⟩ := C150_backward hp h hps hpd hop hds hdv hab c pk conv hlo hh tb ts htb hts hrn hsmall A.transpose
  refine ⟨fun i j hij => h0 j i hij, Q.transpose, ?_, fun i => ?_, fun j => hE j⟩
  · have := congrArg Matrix.transpose hQ
    rw [Matrix.transpose_mul, Matrix.transpose_one] at this
    exact this
  refine le_of_eq_of_le ?_ (hR i)
  congr 1
  funext j
  have e : ∀ (X : Matrix (Fin (r + 1)) (Fin (r + 1)) ℂ), (X.transpose * Q.transpose) i j = (Q * X) j i := by
    intro X; rw [← Matrix.transpose_mul]; rfl
  exact congrArg (· - A i j) (e _)

/-- Non-vacuity: single precision with the textbook operations satisfies the conditions for matrices of up to 100 rows and 100 columns. -/
example {d k : ℕ} (hd : d ≤ 100) (hk : k ≤ 100) :
    let fl := flAway 24
    let ps := fun a b c d => fl (fl (a * b) + fl (c * d))
    let pd := fun a b c d => fl (fl (a * b) - fl (c * d))
    RoundsToNearest 24 fl ∧ Fl.IsProdSum fl ps ∧ Fl.IsProdDiff fl pd ∧ AccurateDivR 24 (fun z s => Fl.flC fl (z / (s : ℂ))) ∧ AccurateAbsC 24 (Fl.absC fl ps) ∧
    480 * qrRoundoffC 24 d k ≤ 1 := by
  intro fl ps pd
  have hn := flAway_roundsToNearest (p := 24) (by norm_num)
  have hps : Fl.IsProdSum fl ps := fun a b c d => Or.inl rfl
  have hpd : Fl.IsProdDiff fl pd := fun a b c d => Or.inl rfl
  refine ⟨hn, hps, hpd, (C150_division (by norm_num) hn hps hpd).1, C146_modulus (by norm_num) hn hps, ?_⟩
  have hd' : (d : ℝ) ≤ 100 := by exact_mod_cast hd
  have hk' : (k : ℝ) ≤ 100 := by exact_mod_cast hk
  have hd0 : (0 : ℝ) ≤ d := Nat.cast_nonneg d
  have := mul_le_mul hk' (by linarith : (d : ℝ) + 3 ≤ 103) (by linarith) (by norm_num)
  unfold qrRoundoffC
  norm_num
  linarith

end Mathter.Props
