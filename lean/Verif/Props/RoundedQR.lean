import Verif.Lemmas.RoundedQR

/-!
# C100: the QR decomposition is backward stable

Lengths are Euclidean (`norm2`), errors are relative to the columns of the matrix.
-/

namespace Mathter.Props
open Mathter
variable {r n m : ℕ} {fl : ℝ → ℝ} {u : ℝ}

/-- Relative error of one Householder reflection of vectors with `d` elements, about `(14 d + 37) u`. -/
noncomputable def householderErr (u : ℝ) (d : ℕ) : ℝ := u + 2 * ((1 + u) ^ (3 * d + 13) / (2 - (1 + u) ^ (2 * d + 7)) ^ 2 - 1)

/-- Relative error of `k` reflections. -/
noncomputable def reflectionsErr (u : ℝ) (d k : ℕ) : ℝ := (1 + householderErr u d) ^ k - 1

private theorem err_eq (u : ℝ) (d : ℕ) (hd : (1 + u) ^ (2 * d + 7) < 2) :
    Fl.reflErr u ((1 + u) ^ 2 * (1 + ((1 + u) ^ (d + 3) - 1)) / (2 - (1 + u) * (1 + ((1 + u) ^ (d + 3) - 1)) ^ 2) - 1) d = householderErr u d := by
  have e1 : (1 + u) * (1 + ((1 + u) ^ (d + 3) - 1)) ^ 2 = (1 + u) ^ (2 * d + 7) := by ring
  have e2 : (1 + u) ^ 2 * (1 + ((1 + u) ^ (d + 3) - 1)) = (1 + u) ^ (d + 5) := by ring
  have h0 : 2 - (1 + u) ^ (2 * d + 7) ≠ 0 := by linarith
  rw [e1, e2]
  unfold Fl.reflErr householderErr
  have e3 : 1 + ((1 + u) ^ (d + 5) / (2 - (1 + u) ^ (2 * d + 7)) - 1) = (1 + u) ^ (d + 5) / (2 - (1 + u) ^ (2 * d + 7)) := by ring
  rw [e3, div_pow, ← mul_div_assoc]
  congr 4
  ring

/-- Extending the columns of `R` by zeros. -/
private theorem mul_top (hrn : n ≤ r) (P : Matrix (Fin r) (Fin r) ℝ) (R : Matrix (Fin n) (Fin m) ℝ) (X : Matrix (Fin r) (Fin m) ℝ)
    (hX : ∀ i j, X i j = if h : i.val < n then R ⟨i.val, h⟩ j else 0) :
    (Matrix.of fun i (j : Fin n) => P i (Fin.castLE hrn j)) * R = P * X := by
  ext i j
  rw [Matrix.mul_apply, Matrix.mul_apply]
  apply Finset.sum_of_injOn (Fin.castLE hrn)
  · intro a _ b _ hab; exact Fin.castLE_injective hrn hab
  · intro a _; simp
  · intro q _ hq
    have : n ≤ q.val := by
      by_contra hlt
      exact hq ⟨⟨q.val, by omega⟩, by simp, Fin.ext rfl⟩
    rw [hX, dif_neg (by omega), mul_zero]
  · intro q _
    rw [hX, dif_pos (show (Fin.castLE hrn q).val < n from q.isLt)]; rfl

/-- C100: `DecomposeQR` of any real matrix, rounded after every operation, whatever the vectorisation and the order of summation and whether or not
products and sums are fused. The computed `R` is upper triangular, and there is a matrix `Q` with exactly orthonormal columns such that `Q * R` is the
given matrix up to a small multiple of each of its columns, and the computed `Q` is close to that matrix. -/
theorem C100_backward (h : Rounding fl u) (h1 : fl 1 = 1) {madd msub : ℝ → ℝ → ℝ → ℝ} (ha : Fl.IsMulAdd fl madd) (hs : Fl.IsMulSub fl msub) (c : Cfg)
    (p conv : Bool) {lo hi : ℝ} (hlo : 0 < lo) (hh : lo ≤ hi) (tb : RTree (batchSize (r + 1) false)) (ts : RTree (r + 1 + 1)) (htb : tb.Valid)
    (hts : ts.Valid) (hd : (1 + u) ^ (2 * (r + 1) + 7) < 2) (hrn : n + 1 ≤ r + 1) (A : Matrix (Fin (r + 1)) (Fin (n + 1)) ℝ) :
    let d := Fl.decomposeQR fl madd msub (Fl.lengthPrecise c p fl lo hi conv tb ts) lo hrn A
    (∀ i j, j < i → d.R i j = 0) ∧
    ∃ Q : Matrix (Fin (r + 1)) (Fin (n + 1)) ℝ, Q.transpose * Q = 1 ∧
      (∀ j, norm2 (fun i => (Q * d.R) i j - A i j) ≤ ((1 + 2 * reflectionsErr u (r + 1) (n + 1)) * (1 + u) ^ 2 - 1) * norm2 (fun i => A i j)) ∧
      ∀ i, norm2 (fun j => d.Q i j - Q i j) ≤ reflectionsErr u (r + 1) (n + 1) := by
  intro d
  have hu := h.u_nonneg
  have g1 := Fl.one_le_growth h (r + 4)
  have hg2 : (1 + u) * (1 + ((1 + u) ^ (r + 4) - 1)) ^ 2 < 2 := by
    refine lt_of_eq_of_lt ?_ hd
    ring
  have hdef : d = Fl.decomposeQR fl madd msub (Fl.lengthPrecise c p fl lo hi conv tb ts) lo hrn A := rfl
  clear_value d
  unfold Fl.decomposeQR at hdef
  have hsc := scaler_pos lo hlo (matScaleElements A)
  set sc : ℝ := max lo (matScaleElements A)
  clear_value sc
  dsimp only at hdef
  set A0 : Matrix (Fin (r + 1)) (Fin (n + 1)) ℝ := Matrix.of fun i j => fl (A i j / sc) with hA0
  obtain ⟨P, hP, hR, hQ, hL⟩ := Fl.qr_err h h1 ha hs hlo hh (by linarith) hg2 (Fl.lengthPrecise c p fl lo hi conv tb ts)
    (Fl.lengthPrecise_err h c p hlo hh conv tb ts htb hts) (Fl.lengthPrecise_fix h c p lo hi conv tb ts) hrn A0
  have hε0 : Fl.reflErr u ((1 + u) ^ 2 * (1 + ((1 + u) ^ (r + 4) - 1)) / (2 - (1 + u) * (1 + ((1 + u) ^ (r + 4) - 1)) ^ 2) - 1) (r + 1) =
      householderErr u (r + 1) := err_eq u (r + 1) hd
  rw [hε0] at hR hQ hL
  set s := forUp (n + 1) 0 (Fl.qrStep fl madd msub (Fl.lengthPrecise c p fl lo hi conv tb ts) hrn) (⟨A0, 1⟩ : QRState ℝ (r + 1) (n + 1))
  clear_value s
  change ∀ j, _ ≤ reflectionsErr u (r + 1) (n + 1) * _ at hR
  change ∀ j, _ ≤ reflectionsErr u (r + 1) (n + 1) at hQ
  change ∀ j : Fin (n + 1), j.val < n + 1 → _ ≤ reflectionsErr u (r + 1) (n + 1) * _ at hL
  have hκ : 0 ≤ reflectionsErr u (r + 1) (n + 1) := (norm2_nonneg _).trans (hQ 0)
  generalize reflectionsErr u (r + 1) (n + 1) = κ at *
  have hdR : ∀ i j, d.R i j = if j < i then 0 else fl (sc * s.R (Fin.castLE hrn i) j) := by
    intro i j
    rw [hdef]
    simp only [Matrix.of_apply]
    rw [zeroLower_apply]
    have hi := i.isLt
    by_cases hji : j < i
    · rw [if_pos hji, if_pos ⟨hji, hi⟩, mul_zero, Fl.fl_zero h]
    · rw [if_neg hji, if_neg fun h' => hji h'.1]
  have hdQ : ∀ i j, d.Q i j = s.QT (Fin.castLE hrn j) i := by intro i j; rw [hdef]; rfl
  clear hdef
  refine ⟨fun i j hij => by rw [hdR, if_pos hij], Matrix.of fun i j => P (Fin.castLE hrn j) i, ?_, fun j => ?_, fun i => ?_⟩
  · -- orthonormal
    have hP' : P * P.transpose = 1 := mul_eq_one_comm.1 hP
    ext i j
    have := congrFun (congrFun hP' (Fin.castLE hrn i)) (Fin.castLE hrn j)
    rw [Matrix.mul_apply] at this ⊢
    simp only [Matrix.transpose_apply, Matrix.of_apply] at this ⊢
    rw [this, Matrix.one_apply, Matrix.one_apply]
    simp only [(Fin.castLE_injective hrn).eq_iff]
  · -- reconstruction
    set X : Matrix (Fin (r + 1)) (Fin (n + 1)) ℝ := Matrix.of fun i j => if h : i.val < n + 1 then d.R ⟨i.val, h⟩ j else 0 with hX
    have e1 := mul_top hrn P.transpose d.R X (fun i j => rfl)
    have e2 : (Matrix.of fun i j => P (Fin.castLE hrn j) i) = (Matrix.of fun i (j : Fin (n + 1)) => P.transpose i (Fin.castLE hrn j)) := rfl
    rw [e2, e1]
    have hP' : P.transpose.transpose * P.transpose = 1 := by rw [Matrix.transpose_transpose]; exact mul_eq_one_comm.1 hP
    have e3 : norm2 (fun i => (P.transpose * X) i j - A i j) = norm2 (fun i => X i j - (P * A) i j) := by
      have := Fl.norm2_mul_col hP' (X - P * A) j
      rw [Matrix.mul_sub, ← Matrix.mul_assoc, hP, Matrix.one_mul] at this
      exact this
    rw [e3]
    -- `sc * R` against `P * A`
    have hup : ∀ i, X i j = if j.val < i.val then 0 else fl (sc * s.R i j) := by
      intro i
      simp only [hX, Matrix.of_apply]
      have hj := j.isLt
      by_cases hi : i.val < n + 1
      · rw [dif_pos hi, hdR]
        rfl
      · rw [dif_neg hi, if_pos (by omega)]
    have hA0n : norm2 (fun i => sc * A0 i j - A i j) ≤ u * norm2 (fun i => A i j) := norm2_le_mul hu fun i => by
      have := h.err (A i j / sc)
      have e : sc * A0 i j - A i j = sc * (fl (A i j / sc) - A i j / sc) := by
        rw [hA0, Matrix.of_apply]; field_simp
      have e' : |A i j| = sc * |A i j / sc| := by rw [abs_div, abs_of_pos hsc]; field_simp
      rw [e, e', abs_mul, abs_of_pos hsc, mul_left_comm]
      exact mul_le_mul_of_nonneg_left this hsc.le
    have hA0s : sc * norm2 (fun i => A0 i j) ≤ (1 + u) * norm2 (fun i => A i j) := by
      have t := norm2_add_le (fun i => sc * A0 i j - A i j) (fun i => A i j)
      simp only [sub_add_cancel] at t
      rw [norm2_smul, abs_of_pos hsc] at t
      linarith
    -- the exact upper triangle of the state
    have t1 : norm2 (fun i => (if j.val < i.val then 0 else s.R i j) - (P * A0) i j) ≤ 2 * κ * norm2 (fun i => A0 i j) := by
      have t := norm2_add_le (fun i : Fin (r + 1) => -(if j.val < i.val then s.R i j else 0)) (fun i => s.R i j - (P * A0) i j)
      rw [norm2_neg fun i : Fin (r + 1) => if j.val < i.val then s.R i j else 0] at t
      have e : (fun i : Fin (r + 1) => -(if j.val < i.val then s.R i j else 0) + (s.R i j - (P * A0) i j)) =
          fun i => (if j.val < i.val then 0 else s.R i j) - (P * A0) i j := by
        funext i; split <;> ring
      rw [e] at t
      linarith [hR j, hL j j.isLt]
    have t2 : norm2 (fun i => (if j.val < i.val then 0 else s.R i j)) ≤ (1 + 2 * κ) * norm2 (fun i => A0 i j) := by
      have t := norm2_add_le (fun i => (if j.val < i.val then 0 else s.R i j) - (P * A0) i j) (fun i => (P * A0) i j)
      simp only [sub_add_cancel] at t
      rw [Fl.norm2_mul_col hP] at t
      linarith
    have t3 : norm2 (fun i => X i j - sc * (if j.val < i.val then 0 else s.R i j)) ≤ u * (sc * norm2 (fun i => (if j.val < i.val then 0 else s.R i j))) := by
      have := norm2_smul sc fun i => (if j.val < i.val then 0 else s.R i j)
      rw [abs_of_pos hsc] at this
      rw [← this]
      refine norm2_le_mul hu fun i => ?_
      rw [hup]
      split
      · simp
      · exact h.err _
    have t4 := norm2_add_le (fun i => X i j - sc * (if j.val < i.val then 0 else s.R i j)) (fun i => sc * ((if j.val < i.val then 0 else s.R i j) - (P * A0) i j))
    have t5 := norm2_add_le (fun i => X i j - sc * (if j.val < i.val then 0 else s.R i j) + sc * ((if j.val < i.val then 0 else s.R i j) - (P * A0) i j))
      (fun i => (P * (sc • A0 - A)) i j)
    rw [Fl.norm2_mul_col hP] at t5
    have e5 : (fun i => X i j - sc * (if j.val < i.val then 0 else s.R i j) + sc * ((if j.val < i.val then 0 else s.R i j) - (P * A0) i j) +
        (P * (sc • A0 - A)) i j) = fun i => X i j - (P * A) i j := by
      funext i
      rw [Matrix.mul_sub, Matrix.mul_smul, Matrix.sub_apply, Matrix.smul_apply, smul_eq_mul]; ring
    rw [e5] at t5
    change _ ≤ _ + norm2 (fun i => sc * A0 i j - A i j) at t5
    rw [norm2_smul, abs_of_pos hsc] at t4
    have hN := norm2_nonneg fun i => A i j
    have t6 : sc * norm2 (fun i => (if j.val < i.val then 0 else s.R i j)) ≤ (1 + 2 * κ) * (sc * norm2 (fun i => A0 i j)) := by
      have := mul_le_mul_of_nonneg_left t2 hsc.le
      linarith
    have t7 : sc * norm2 (fun i => (if j.val < i.val then 0 else s.R i j) - (P * A0) i j) ≤ 2 * κ * (sc * norm2 (fun i => A0 i j)) := by
      have := mul_le_mul_of_nonneg_left t1 hsc.le
      linarith
    have t8 : u * (sc * norm2 (fun i => (if j.val < i.val then 0 else s.R i j))) ≤ u * ((1 + 2 * κ) * ((1 + u) * norm2 (fun i => A i j))) :=
      mul_le_mul_of_nonneg_left (t6.trans (mul_le_mul_of_nonneg_left hA0s (by linarith))) hu
    have t9 : 2 * κ * (sc * norm2 (fun i => A0 i j)) ≤ 2 * κ * ((1 + u) * norm2 (fun i => A i j)) := mul_le_mul_of_nonneg_left hA0s (by linarith)
    linarith
  · -- the computed `Q`
    refine le_trans ?_ (hQ i)
    unfold norm2
    refine Real.sqrt_le_sqrt ?_
    simp only [hdQ, Matrix.of_apply]
    have := Finset.sum_le_sum_of_subset_of_nonneg (f := fun q => (s.QT q i - P q i) ^ 2)
      (Finset.subset_univ (Finset.univ.map (Fin.castLEEmb hrn))) (fun _ _ _ => sq_nonneg _)
    rw [Finset.sum_map] at this
    exact this

/-- C100: for matrices of any usable size the bounds are small multiples of the unit roundoff `u`, and the smallness condition of the theorems holds. -/
theorem C100_size {d k : ℕ} (hu : 0 ≤ u) (hd : 50 * (3 * d + 13) * u ≤ 1) (hk : 40 * k * (d + 5) * u ≤ 1) :
    (1 + u) ^ (2 * d + 7) < 2 ∧ 0 ≤ reflectionsErr u d k ∧ reflectionsErr u d k ≤ 40 * k * (d + 5) * u := by
  have pow_le : ∀ (N : ℕ) (x : ℝ), 0 ≤ x → N * x < 1 → (1 + x) ^ N ≤ 1 / (1 - N * x) := by
    intro N x hx hN
    rw [le_div_iff₀ (by linarith)]
    have b := one_add_mul_le_pow (a := -x / (1 + x)) (by rw [le_div_iff₀ (by linarith)]; linarith) N
    have e : 1 + -x / (1 + x) = 1 / (1 + x) := by field_simp; ring
    rw [e, div_pow, one_pow] at b
    have hp : 0 < (1 + x) ^ N := by positivity
    have b2 : 1 - N * x ≤ 1 / (1 + x) ^ N := by
      refine le_trans ?_ b
      have : x / (1 + x) ≤ x := div_le_self hx (by linarith)
      have := mul_le_mul_of_nonneg_left this (Nat.cast_nonneg N : (0 : ℝ) ≤ N)
      have e2 : (N : ℝ) * (-x / (1 + x)) = -(N * (x / (1 + x))) := by ring
      linarith
    rw [le_div_iff₀ hp] at b2
    linarith
  have hdn : (0 : ℝ) ≤ d := Nat.cast_nonneg d
  set x : ℝ := (3 * d + 13) * u with hx
  have hx0 : 0 ≤ x := by positivity
  have hx1 : 50 * x ≤ 1 := by rw [hx]; linarith
  have p1 : (1 + u) ^ (3 * d + 13) ≤ 1 / (1 - x) := by
    have := pow_le (3 * d + 13) u hu (by push_cast; linarith)
    push_cast at this
    exact this
  have p2 : (1 + u) ^ (2 * d + 7) ≤ 1 / (1 - x) := (pow_le_pow_right₀ (by linarith) (by omega)).trans p1
  have h1x : 0 < 1 - x := by linarith
  have h12x : 0 < 1 - 2 * x := by linarith
  have hlt : (1 + u) ^ (2 * d + 7) < 2 := by
    refine p2.trans_lt ?_
    rw [div_lt_iff₀ h1x]; linarith
  have hh : householderErr u d ≤ 20 * (d + 5) * u := by
    have q1 : (1 - 2 * x) / (1 - x) ≤ 2 - (1 + u) ^ (2 * d + 7) := by
      have e : (1 - 2 * x) / (1 - x) = 2 - 1 / (1 - x) := by field_simp; ring
      rw [e]; linarith
    have q0 : 0 < (1 - 2 * x) / (1 - x) := div_pos h12x h1x
    have q2 : (1 + u) ^ (3 * d + 13) / (2 - (1 + u) ^ (2 * d + 7)) ^ 2 ≤ (1 / (1 - x)) / ((1 - 2 * x) / (1 - x)) ^ 2 :=
      div_le_div₀ (by positivity) p1 (by positivity) (pow_le_pow_left₀ q0.le q1 2)
    have e : (1 / (1 - x)) / ((1 - 2 * x) / (1 - x)) ^ 2 = (1 - x) / (1 - 2 * x) ^ 2 := by field_simp
    have q3 : (1 - x) / (1 - 2 * x) ^ 2 ≤ 1 + 33 / 10 * x := by
      rw [div_le_iff₀ (by positivity)]
      nlinarith [mul_nonneg hx0 hx0, mul_nonneg (mul_nonneg hx0 hx0) hx0, mul_nonneg hx0 (by linarith : (0 : ℝ) ≤ 1 - 50 * x)]
    rw [e] at q2
    unfold householderErr
    have : 66 / 10 * x ≤ (20 * d + 99) * u := by rw [hx]; nlinarith [mul_nonneg hdn hu]
    linarith
  have hh0 : 0 ≤ householderErr u d := by
    unfold householderErr
    have a1 : 1 ≤ (1 + u) ^ (3 * d + 13) := one_le_pow₀ (by linarith)
    have a2 : 1 ≤ (1 + u) ^ (2 * d + 7) := one_le_pow₀ (by linarith)
    have a3 : (2 - (1 + u) ^ (2 * d + 7)) ^ 2 ≤ 1 := by nlinarith
    have a4 : 1 ≤ (1 + u) ^ (3 * d + 13) / (2 - (1 + u) ^ (2 * d + 7)) ^ 2 := by
      rw [le_div_iff₀ (pow_pos (by linarith) 2)]; linarith
    linarith
  refine ⟨hlt, ?_, ?_⟩
  · have : 1 ≤ (1 + householderErr u d) ^ k := one_le_pow₀ (by linarith)
    unfold reflectionsErr; linarith
  · unfold reflectionsErr
    have hy0 : 0 ≤ 20 * (d + 5) * u := by positivity
    have hky : k * (20 * (d + 5) * u) ≤ 1 / 2 := by linarith
    have hky0 : 0 ≤ k * (20 * (d + 5) * u) := by positivity
    have a := pow_le k (20 * (d + 5) * u) hy0 (by linarith)
    have b : (1 + householderErr u d) ^ k ≤ (1 + 20 * (d + 5) * u) ^ k := pow_le_pow_left₀ (by linarith) (by linarith) k
    have e : (40 * k * (d + 5) * u : ℝ) = 2 * (k * (20 * (d + 5) * u)) := by ring
    rw [e]
    generalize (k : ℝ) * (20 * (d + 5) * u) = y at *
    have : 1 / (1 - y) ≤ 1 + 2 * y := by
      rw [div_le_iff₀ (by linarith)]; nlinarith
    linarith

/-- C100: so the product of the computed factors is the given matrix, and the columns of the computed `Q` are orthonormal, up to small multiples. -/
theorem C100_product (h : Rounding fl u) (h1 : fl 1 = 1) {madd msub : ℝ → ℝ → ℝ → ℝ} (ha : Fl.IsMulAdd fl madd) (hs : Fl.IsMulSub fl msub) (c : Cfg)
    (p conv : Bool) {lo hi : ℝ} (hlo : 0 < lo) (hh : lo ≤ hi) (tb : RTree (batchSize (r + 1) false)) (ts : RTree (r + 1 + 1)) (htb : tb.Valid)
    (hts : ts.Valid) (hd : (1 + u) ^ (2 * (r + 1) + 7) < 2) (hrn : n + 1 ≤ r + 1) (A : Matrix (Fin (r + 1)) (Fin (n + 1)) ℝ) :
    let d := Fl.decomposeQR fl madd msub (Fl.lengthPrecise c p fl lo hi conv tb ts) lo hrn A
    let κ := reflectionsErr u (r + 1) (n + 1)
    let s := Real.sqrt (r + 1)
    (∀ j, norm2 (fun i => (d.Q * d.R) i j - A i j) ≤ ((1 + s * κ) * (1 + 2 * κ) * (1 + u) ^ 2 - 1) * norm2 (fun i => A i j)) ∧
    ∀ i j, |(d.Q.transpose * d.Q) i j - (1 : Matrix (Fin (n + 1)) (Fin (n + 1)) ℝ) i j| ≤ 2 * s * κ + (s * κ) ^ 2 := by
  intro d κ s
  obtain ⟨-, Q, hQ, hR, hE⟩ := C100_backward h h1 ha hs c p conv hlo hh tb ts htb hts hd hrn A
  change ∀ j, norm2 (fun i => (Q * d.R) i j - A i j) ≤ ((1 + 2 * κ) * (1 + u) ^ 2 - 1) * _ at hR
  change ∀ i, norm2 (fun j => d.Q i j - Q i j) ≤ κ at hE
  have hκ : 0 ≤ κ := (norm2_nonneg _).trans (hE 0)
  have hs0 : 0 ≤ s := Real.sqrt_nonneg _
  have hsq : s = Real.sqrt ((r + 1 : ℕ) : ℝ) := by push_cast; rfl
  clear_value κ s d
  have hcol : ∀ j, norm2 (fun i => d.Q i j - Q i j) ≤ s * κ := by
    intro j
    rw [hsq]
    exact norm2_le_sqrt hκ fun i => (abs_le_norm2 (fun j => d.Q i j - Q i j) j).trans (hE i)
  refine ⟨fun j => ?_, fun i j => ?_⟩
  · have e1 : norm2 (fun i => d.R i j) ≤ (1 + 2 * κ) * (1 + u) ^ 2 * norm2 (fun i => A i j) := by
      have t := norm2_add_le (fun i => (Q * d.R) i j - A i j) (fun i => A i j)
      simp only [sub_add_cancel] at t
      have e := norm2_mulVec hQ (fun i => d.R i j)
      have e' : Q.mulVec (fun i => d.R i j) = fun i => (Q * d.R) i j := rfl
      rw [e'] at e
      rw [e] at t
      linarith [hR j]
    have e2 : norm2 (fun i => ((d.Q - Q) * d.R) i j) ≤ s * (κ * norm2 (fun i => d.R i j)) := by
      rw [hsq]
      refine norm2_le_sqrt (mul_nonneg hκ (norm2_nonneg _)) fun i => ?_
      rw [Matrix.mul_apply]
      refine (dot_abs_le _ _).trans (mul_le_mul_of_nonneg_right ?_ (norm2_nonneg _))
      exact hE i
    have t := norm2_add_le (fun i => ((d.Q - Q) * d.R) i j) (fun i => (Q * d.R) i j - A i j)
    have e3 : (fun i => ((d.Q - Q) * d.R) i j + ((Q * d.R) i j - A i j)) = fun i => (d.Q * d.R) i j - A i j := by
      funext i; rw [Matrix.sub_mul, Matrix.sub_apply]; ring
    rw [e3] at t
    have e4 := mul_le_mul_of_nonneg_left e1 (mul_nonneg hs0 hκ)
    linarith [hR j]
  · have e1 : (d.Q.transpose * d.Q) i j - (1 : Matrix (Fin (n + 1)) (Fin (n + 1)) ℝ) i j =
        (∑ k, Q k i * (d.Q k j - Q k j)) + (∑ k, (d.Q k i - Q k i) * Q k j) + ∑ k, (d.Q k i - Q k i) * (d.Q k j - Q k j) := by
      rw [← hQ, Matrix.mul_apply, Matrix.mul_apply, ← Finset.sum_sub_distrib, ← Finset.sum_add_distrib, ← Finset.sum_add_distrib]
      refine Finset.sum_congr rfl fun k _ => ?_
      rw [Matrix.transpose_apply, Matrix.transpose_apply]; ring
    have hq : ∀ j, norm2 (fun k => Q k j) = 1 := by
      intro j
      have := congrFun (congrFun hQ j) j
      rw [Matrix.mul_apply, Matrix.one_apply_eq] at this
      unfold norm2
      rw [Real.sqrt_eq_one, ← this]
      exact Finset.sum_congr rfl fun k _ => by rw [Matrix.transpose_apply]; ring
    have a1 := dot_abs_le (fun k => Q k i) (fun k => d.Q k j - Q k j)
    have a2 := dot_abs_le (fun k => d.Q k i - Q k i) (fun k => Q k j)
    have a3 := dot_abs_le (fun k => d.Q k i - Q k i) (fun k => d.Q k j - Q k j)
    rw [hq, one_mul] at a1
    rw [hq, mul_one] at a2
    have a4 := mul_le_mul (hcol i) (hcol j) (norm2_nonneg _) (mul_nonneg hs0 hκ)
    rw [e1]
    refine (abs_add_le _ _).trans ?_
    have a5 := abs_add_le (∑ k, Q k i * (d.Q k j - Q k j)) (∑ k, (d.Q k i - Q k i) * Q k j)
    have := hcol i
    have := hcol j
    nlinarith

/-- C100: `DecomposeLQ` likewise, row by row. -/
theorem C100_lq (h : Rounding fl u) (h1 : fl 1 = 1) {madd msub : ℝ → ℝ → ℝ → ℝ} (ha : Fl.IsMulAdd fl madd) (hs : Fl.IsMulSub fl msub) (c : Cfg)
    (p conv : Bool) {lo hi : ℝ} (hlo : 0 < lo) (hh : lo ≤ hi) (tb : RTree (batchSize (n + 1) false)) (ts : RTree (n + 1 + 1)) (htb : tb.Valid)
    (hts : ts.Valid) (hd : (1 + u) ^ (2 * (n + 1) + 7) < 2) (hrn : r + 1 ≤ n + 1) (A : Matrix (Fin (r + 1)) (Fin (n + 1)) ℝ) :
    let d := Fl.decomposeLQ fl madd msub (Fl.lengthPrecise c p fl lo hi conv tb ts) lo hrn A
    (∀ i j, i < j → d.L i j = 0) ∧
    ∃ Q : Matrix (Fin (r + 1)) (Fin (n + 1)) ℝ, Q * Q.transpose = 1 ∧
      (∀ i, norm2 (fun j => (d.L * Q) i j - A i j) ≤ ((1 + 2 * reflectionsErr u (n + 1) (r + 1)) * (1 + u) ^ 2 - 1) * norm2 (fun j => A i j)) ∧
      ∀ j, norm2 (fun i => d.Q i j - Q i j) ≤ reflectionsErr u (n + 1) (r + 1) := by
  obtain ⟨h0, Q, hQ, hR, hE⟩ := C100_backward h h1 ha hs c p conv hlo hh tb ts htb hts hd hrn A.transpose
  refine ⟨fun i j hij => h0 j i hij, Q.transpose, by rw [Matrix.transpose_transpose]; exact hQ, fun i => ?_, fun j => hE j⟩
  have := hR i
  refine le_of_eq_of_le ?_ this
  congr 1
  funext j
  have e : ∀ (X : Matrix (Fin (r + 1)) (Fin (r + 1)) ℝ), (X.transpose * Q.transpose) i j = (Q * X) j i := by
    intro X; rw [← Matrix.transpose_mul]; rfl
  exact congrArg (· - A i j) (e _)

/-- Non-vacuity: single precision satisfies the conditions for matrices of up to 100 rows and 100 columns. -/
example {d k : ℕ} (hd : d ≤ 100) (hk : k ≤ 100) : Rounding (flAway 24) ((2 : ℝ) ^ (-((24 : ℕ) : ℤ))) ∧ flAway 24 1 = 1 ∧
    50 * (3 * d + 13) * (2 : ℝ) ^ (-((24 : ℕ) : ℤ)) ≤ 1 ∧ 40 * k * (d + 5) * (2 : ℝ) ^ (-((24 : ℕ) : ℤ)) ≤ 1 := by
  have hn := flAway_roundsToNearest (p := 24) (by norm_num)
  have hd' : (d : ℝ) ≤ 100 := by exact_mod_cast hd
  have hk' : (k : ℝ) ≤ 100 := by exact_mod_cast hk
  have hd0 : (0 : ℝ) ≤ d := Nat.cast_nonneg d
  refine ⟨hn.rounding (by norm_num), ?_, ?_, ?_⟩
  · have := hn.nearest 1 1 ⟨1, 0, by norm_num, by norm_num⟩
    rw [sub_self, abs_zero] at this
    exact sub_eq_zero.1 (abs_nonpos_iff.1 this)
  · norm_num; linarith
  · have := mul_le_mul hk' (by linarith : (d : ℝ) + 5 ≤ 105) (by linarith) (by norm_num)
    norm_num; linarith

/-! ## C101 -/

/-- The least squares solution of `Q R x = b` for orthonormal columns of `Q`. -/
private theorem minimiser {Q : Matrix (Fin r) (Fin n) ℝ} (hQ : Q.transpose * Q = 1) (R : Matrix (Fin n) (Fin n) ℝ) (x : Fin n → ℝ) (b : Fin r → ℝ)
    (hx : R.mulVec x = Q.transpose.mulVec b) (y : Fin n → ℝ) :
    norm2 (fun i => (Q * R).mulVec x i - b i) ≤ norm2 (fun i => (Q * R).mulVec y i - b i) := by
  -- the residual is orthogonal to the columns of `Q`
  set e : Fin r → ℝ := fun i => (Q * R).mulVec x i - b i with he
  set w : Fin n → ℝ := R.mulVec y - R.mulVec x with hw
  have e1 : (fun i => (Q * R).mulVec y i - b i) = fun i => e i + Q.mulVec w i := by
    funext i
    rw [he, hw, Matrix.mulVec_sub, Matrix.mulVec_mulVec, Matrix.mulVec_mulVec, Pi.sub_apply]; ring
  have e2 : Q.transpose.mulVec e = 0 := by
    have : e = (Q * R).mulVec x - b := rfl
    rw [this, Matrix.mulVec_sub, Matrix.mulVec_mulVec, ← Matrix.mul_assoc, hQ, Matrix.one_mul, hx, sub_self]
  have e3 : ∑ i, e i * Q.mulVec w i = 0 := by
    have : ∑ i, e i * Q.mulVec w i = e ⬝ᵥ Q.mulVec w := rfl
    rw [this, Matrix.dotProduct_mulVec, ← Matrix.mulVec_transpose, e2, zero_dotProduct]
  rw [e1]
  unfold norm2
  refine Real.sqrt_le_sqrt ?_
  have e4 : ∑ i, (e i + Q.mulVec w i) ^ 2 = ∑ i, e i ^ 2 + 2 * ∑ i, e i * Q.mulVec w i + ∑ i, (Q.mulVec w i) ^ 2 := by
    rw [Finset.mul_sum, ← Finset.sum_add_distrib, ← Finset.sum_add_distrib]
    exact Finset.sum_congr rfl fun i _ => by ring
  rw [e4, e3]
  have := Finset.sum_nonneg fun i (_ : i ∈ Finset.univ) => sq_nonneg (Q.mulVec w i)
  linarith

/-- Relative change of the columns of the matrix. -/
noncomputable def solveErrA (p r n : ℕ) : ℝ :=
  (1 + roundoff p n) * ((1 + 2 * reflectionsErr ((2 : ℝ) ^ (-(p : ℤ))) r n) * (1 + (2 : ℝ) ^ (-(p : ℤ))) ^ 2) - 1

/-- Relative change of the right hand side. -/
noncomputable def solveErrB (p r n : ℕ) : ℝ :=
  let κ := Real.sqrt r * reflectionsErr ((2 : ℝ) ^ (-(p : ℤ))) r n
  Real.sqrt n * (κ + ((1 + (2 : ℝ) ^ (-(p : ℤ))) ^ r - 1) * (1 + κ))

/-- C101: `DecompositionQR::Solve` on the rounded factors, for matrices with at least as many rows as columns, unless a diagonal element of `R` is zero:
every column of the result is the exact least squares solution for a matrix and a right hand side that are close to the given ones. -/
theorem C101_solve {p : ℕ} (hp : 1 ≤ p) {fl : ℝ → ℝ} (h : RoundsToNearest p fl) {madd msub : ℝ → ℝ → ℝ → ℝ} (ha : Fl.IsMulAdd fl madd)
    (hs : Fl.IsMulSub fl msub) (c : Cfg) (pk conv : Bool) {lo hi : ℝ} (hlo : 0 < lo) (hh : lo ≤ hi) (tb : RTree (batchSize (r + 1) false))
    (ts : RTree (r + 1 + 1)) (htb : tb.Valid) (hts : ts.Valid) (hd : (1 + (2 : ℝ) ^ (-(p : ℤ))) ^ (2 * (r + 1) + 7) < 2) (hrn : n + 1 ≤ r + 1)
    (A : Matrix (Fin (r + 1)) (Fin (n + 1)) ℝ)
    (h0 : ∀ i, (Fl.decomposeQR fl madd msub (Fl.lengthPrecise c pk fl lo hi conv tb ts) lo hrn A).R i i ≠ 0)
    {L L' : Layout} {p1 p2 : Bool} (t0 : Mat c ℝ (n + 1) (r + 1) .precede L p1) (m0 : Mat c ℝ (n + 1) m .precede L (p1 && p2))
    (Q : Mat c ℝ (r + 1) (n + 1) .precede L p1)
    (hQ : ∀ i j, Q.get i j = (Fl.decomposeQR fl madd msub (Fl.lengthPrecise c pk fl lo hi conv tb ts) lo hrn A).Q i j)
    (b : Mat c ℝ (r + 1) m .precede L' p2) :
    ∃ X, Fl.qrSolve fl madd msub conv tb ts t0 m0 Q (Fl.decomposeQR fl madd msub (Fl.lengthPrecise c pk fl lo hi conv tb ts) lo hrn A).R b = some X ∧
    ∀ j, ∃ (M : Matrix (Fin (r + 1)) (Fin (n + 1)) ℝ) (β : Fin (r + 1) → ℝ),
      (∀ q, norm2 (fun i => M i q - A i q) ≤ solveErrA p (r + 1) (n + 1) * norm2 (fun i => A i q)) ∧
      norm2 (fun i => β i - b.get i j) ≤ solveErrB p (r + 1) (n + 1) * norm2 (fun i => b.get i j) ∧
      (∀ y : Fin (n + 1) → ℝ, norm2 (fun i => M.mulVec (fun q => X q j) i - β i) ≤ norm2 (fun i => M.mulVec y i - β i)) ∧
      (r = n → ∀ i, M.mulVec (fun q => X q j) i = β i) := by
  have hr := h.rounding hp
  have h1 : fl 1 = 1 := by
    have := h.nearest 1 1 ⟨1, 0, by norm_num, by rw [abs_one]; exact one_lt_pow₀ (by norm_num) (by omega)⟩
    rw [sub_self, abs_zero] at this
    exact sub_eq_zero.1 (abs_nonpos_iff.1 this)
  obtain ⟨hlow, O, hO, hR, hE⟩ := C100_backward hr h1 ha hs c pk conv hlo hh tb ts htb hts hd hrn A
  have hfl : ∀ i j, IsFloat p ((Fl.decomposeQR fl madd msub (Fl.lengthPrecise c pk fl lo hi conv tb ts) lo hrn A).R i j) := fun i j => h.mem _
  unfold solveErrA solveErrB
  set u : ℝ := (2 : ℝ) ^ (-(p : ℤ)) with hu
  have hu0 : 0 ≤ u := by rw [hu]; positivity
  set d := Fl.decomposeQR fl madd msub (Fl.lengthPrecise c pk fl lo hi conv tb ts) lo hrn A
  clear_value d
  set κ := reflectionsErr u (r + 1) (n + 1)
  have hκ : 0 ≤ κ := (norm2_nonneg _).trans (hE 0)
  clear_value κ
  obtain ⟨X, hX, hXb⟩ := C83_upper hp h hs d.R (Matrix.of (Fl.matMul fl madd conv tb ts m0 (Mat.transpose t0 Q) b).get) hfl hlow h0
  refine ⟨X, hX, fun j => ?_⟩
  obtain ⟨D, hD, eD⟩ := hXb j
  -- the right hand side
  have hf := fun i => C82_mul hr ha conv tb ts htb hts m0 (Mat.transpose t0 Q) b i j
  have hT : ∀ i q, (Mat.transpose t0 Q).get i q = d.Q q i := by
    intro i q
    have := congrFun (congrFun (C27_transpose t0 Q) i) q
    exact this.trans (hQ q i)
  simp only [hT] at hf
  set f : Fin (n + 1) → ℝ := fun i => (Fl.matMul fl madd conv tb ts m0 (Mat.transpose t0 Q) b).get i j with hfdef
  have eD' : (d.R + D).mulVec (fun q => X q j) = f := eD
  change ∀ i, |f i - _| ≤ _ at hf
  clear_value f
  set B : Fin (r + 1) → ℝ := fun i => b.get i j with hB
  have hγ : 0 ≤ (1 + u) ^ (r + 1) - 1 := by
    have : (1 : ℝ) ≤ (1 + u) ^ (r + 1) := one_le_pow₀ (by linarith)
    linarith
  have hρ : 0 ≤ roundoff p (n + 1) := by
    unfold roundoff
    have hu1 : u ≤ 1 / 2 := by
      rw [hu, zpow_neg, zpow_natCast, one_div]
      exact inv_anti₀ (by norm_num) (by calc (2 : ℝ) = 2 ^ 1 := by norm_num
        _ ≤ 2 ^ p := pow_le_pow_right₀ (by norm_num) hp)
    have : (1 : ℝ) ≤ 1 / (1 - u) := by rw [le_div_iff₀ (by linarith)]; linarith
    have := one_le_pow₀ this (n := n + 1)
    linarith
  have hOc : ∀ q, norm2 (fun i => O i q) = 1 := by
    intro q
    have := congrFun (congrFun hO q) q
    rw [Matrix.mul_apply, Matrix.one_apply_eq] at this
    unfold norm2
    rw [Real.sqrt_eq_one, ← this]
    exact Finset.sum_congr rfl fun k _ => by rw [Matrix.transpose_apply]; ring
  set σ : ℝ := Real.sqrt ((r + 1 : ℕ) : ℝ) * κ with hσ
  have hσ0 : 0 ≤ σ := mul_nonneg (Real.sqrt_nonneg _) hκ
  have hcol : ∀ q, norm2 (fun i => d.Q i q - O i q) ≤ σ := fun q =>
    norm2_le_sqrt hκ fun i => (abs_le_norm2 (fun q => d.Q i q - O i q) q).trans (hE i)
  have hQc : ∀ q, norm2 (fun i => d.Q i q) ≤ 1 + σ := by
    intro q
    have t := norm2_add_le (fun i => d.Q i q - O i q) (fun i => O i q)
    simp only [sub_add_cancel] at t
    linarith [hcol q, hOc q]
  clear_value σ
  have hB0 := norm2_nonneg B
  have hfe : ∀ q, |f q - O.transpose.mulVec B q| ≤ (σ + ((1 + u) ^ (r + 1) - 1) * (1 + σ)) * norm2 B := by
    intro q
    have t1 : |f q - ∑ i, d.Q i q * B i| ≤ ((1 + u) ^ (r + 1) - 1) * ((1 + σ) * norm2 B) := by
      refine (hf q).trans (mul_le_mul_of_nonneg_left ?_ hγ)
      simp only [abs_mul]
      exact (abs_dot_le (fun i => d.Q i q) B).trans (mul_le_mul_of_nonneg_right (hQc q) hB0)
    have t2 : |∑ i, d.Q i q * B i - O.transpose.mulVec B q| ≤ σ * norm2 B := by
      have e : ∑ i, d.Q i q * B i - O.transpose.mulVec B q = ∑ i, (d.Q i q - O i q) * B i := by
        rw [Matrix.mulVec, dotProduct, ← Finset.sum_sub_distrib]
        exact Finset.sum_congr rfl fun i _ => by rw [Matrix.transpose_apply]; ring
      rw [e]
      exact (dot_abs_le (fun i => d.Q i q - O i q) B).trans (mul_le_mul_of_nonneg_right (hcol q) hB0)
    have t3 := abs_add_le (f q - ∑ i, d.Q i q * B i) (∑ i, d.Q i q * B i - O.transpose.mulVec B q)
    rw [sub_add_sub_cancel] at t3
    linarith
  have hOβ : ∀ w : Fin (n + 1) → ℝ, O.transpose.mulVec (O.mulVec w) = w := by
    intro w; rw [Matrix.mulVec_mulVec, hO, Matrix.one_mulVec]
  set g : Fin (n + 1) → ℝ := f - O.transpose.mulVec B with hg
  have hkey : (d.R + D).mulVec (fun q => X q j) = O.transpose.mulVec (B + O.mulVec g) := by
    rw [Matrix.mulVec_add, hOβ, hg, eD']; simp
  refine ⟨O * (d.R + D), B + O.mulVec g, fun q => ?_, ?_, fun y => minimiser hO _ _ _ hkey y, fun hrn' => ?_⟩
  · have e1 : norm2 (fun i => d.R i q) ≤ (1 + 2 * κ) * (1 + u) ^ 2 * norm2 (fun i => A i q) := by
      have t := norm2_add_le (fun i => (O * d.R) i q - A i q) (fun i => A i q)
      simp only [sub_add_cancel] at t
      have e := norm2_mulVec hO (fun i => d.R i q)
      have e' : O.mulVec (fun i => d.R i q) = fun i => (O * d.R) i q := rfl
      rw [e'] at e
      rw [e] at t
      linarith [hR q]
    have e2 : norm2 (fun i => (O * D) i q) ≤ roundoff p (n + 1) * norm2 (fun i => d.R i q) := by
      have e := norm2_mulVec hO (fun i => D i q)
      have e' : O.mulVec (fun i => D i q) = fun i => (O * D) i q := rfl
      rw [e'] at e
      rw [e]
      exact norm2_le_mul hρ fun i => hD i q
    have t := norm2_add_le (fun i => (O * D) i q) (fun i => (O * d.R) i q - A i q)
    have e3 : (fun i => (O * D) i q + ((O * d.R) i q - A i q)) = fun i => (O * (d.R + D)) i q - A i q := by
      funext i; rw [Matrix.mul_add, Matrix.add_apply]; ring
    rw [e3] at t
    have e4 := mul_le_mul_of_nonneg_left e1 hρ
    linarith [hR q]
  · have e : (fun i => (B + O.mulVec g) i - b.get i j) = O.mulVec g := by
      funext i; simp [hB]
    rw [e, norm2_mulVec hO]
    have := norm2_le_sqrt (mul_nonneg (add_nonneg hσ0 (mul_nonneg hγ (by linarith))) hB0) hfe
    rw [← mul_assoc] at this
    exact this
  · subst hrn'
    have hO' : O * O.transpose = 1 := mul_eq_one_comm.1 hO
    intro i
    have := congrArg O.mulVec hkey
    rw [Matrix.mulVec_mulVec, Matrix.mulVec_mulVec, hO', Matrix.one_mulVec] at this
    exact congrFun this i

private theorem norm2_mulVec_le (E : Matrix (Fin r) (Fin n) ℝ) (y : Fin n → ℝ) : norm2 (E.mulVec y) ≤ norm2 (fun j => norm2 fun i => E i j) * norm2 y := by
  have e : norm2 (fun j => norm2 fun i => E i j) = norm2 (fun i => norm2 (E i)) := by
    unfold norm2
    congr 1
    simp only [← norm2.eq_1, norm2_sq]
    exact Finset.sum_comm
  rw [e, mul_comm, ← abs_of_nonneg (norm2_nonneg y), ← norm2_smul]
  refine norm2_le_of_abs fun i => ?_
  rw [mul_comm]
  exact dot_abs_le (E i) y

/-- C101: no diagonal element of the rounded `R` is zero, so `Solve` has a result, if the columns of the matrix are not too close to linear dependence:
with the smallest singular value `μ` of the matrix above the backward error. -/
theorem C101_regular (h : Rounding fl u) (h1 : fl 1 = 1) {madd msub : ℝ → ℝ → ℝ → ℝ} (ha : Fl.IsMulAdd fl madd) (hs : Fl.IsMulSub fl msub) (c : Cfg)
    (p conv : Bool) {lo hi : ℝ} (hlo : 0 < lo) (hh : lo ≤ hi) (tb : RTree (batchSize (r + 1) false)) (ts : RTree (r + 1 + 1)) (htb : tb.Valid)
    (hts : ts.Valid) (hd : (1 + u) ^ (2 * (r + 1) + 7) < 2) (hrn : n + 1 ≤ r + 1) (A : Matrix (Fin (r + 1)) (Fin (n + 1)) ℝ) {μ : ℝ}
    (hμ : ∀ y, μ * norm2 y ≤ norm2 (A.mulVec y))
    (hA : ((1 + 2 * reflectionsErr u (r + 1) (n + 1)) * (1 + u) ^ 2 - 1) * norm2 (fun j => norm2 fun i => A i j) < μ) :
    ∀ i, (Fl.decomposeQR fl madd msub (Fl.lengthPrecise c p fl lo hi conv tb ts) lo hrn A).R i i ≠ 0 := by
  obtain ⟨hlow, O, hO, hR, -⟩ := C100_backward h h1 ha hs c p conv hlo hh tb ts htb hts hd hrn A
  intro i hi0
  set d := Fl.decomposeQR fl madd msub (Fl.lengthPrecise c p fl lo hi conv tb ts) lo hrn A
  clear_value d
  have hdet : d.R.det = 0 := by
    rw [Matrix.det_of_isUpperTriangular fun i j hij => hlow i j hij]
    exact Finset.prod_eq_zero (Finset.mem_univ i) hi0
  obtain ⟨y, hy0, hy⟩ := Matrix.exists_mulVec_eq_zero_iff.2 hdet
  set η := (1 + 2 * reflectionsErr u (r + 1) (n + 1)) * (1 + u) ^ 2 - 1
  clear_value η
  have e1 : norm2 (A.mulVec y) = norm2 ((O * d.R - A).mulVec y) := by
    rw [Matrix.sub_mulVec, ← Matrix.mulVec_mulVec, hy, Matrix.mulVec_zero, zero_sub]
    exact (norm2_neg _).symm
  have hy1 : 0 < norm2 y := by
    rcases (norm2_nonneg y).lt_or_eq with h' | h'
    · exact h'
    · exact absurd (funext fun i => norm2_eq_zero h'.symm i) hy0
  have e2 := norm2_mulVec_le (O * d.R - A) y
  have e3 : norm2 (fun j => norm2 fun i => (O * d.R - A) i j) ≤ norm2 (fun j => η * norm2 fun i => A i j) :=
    norm2_le_of_abs fun j => by rw [abs_of_nonneg (norm2_nonneg _)]; exact hR j
  by_cases hη : 0 ≤ η
  · rw [norm2_smul, abs_of_nonneg hη] at e3
    have := mul_le_mul_of_nonneg_right e3 hy1.le
    have := mul_lt_mul_of_pos_right hA hy1
    linarith [hμ y]
  · have h0 : ∀ j, norm2 (fun i => (O * d.R - A) i j) = 0 := fun j => by
      have t := norm2_nonneg fun i => (O * d.R - A) i j
      have t1 : norm2 (fun i => (O * d.R - A) i j) ≤ η * norm2 (fun i => A i j) := hR j
      have t2 := mul_nonpos_of_nonpos_of_nonneg (not_le.1 hη).le (norm2_nonneg fun i => A i j)
      linarith
    have hz : ∀ j, norm2 (fun i => A i j) = 0 := fun j => by
      have t1 : norm2 (fun i => (O * d.R - A) i j) ≤ η * norm2 (fun i => A i j) := hR j
      rw [h0] at t1
      by_contra hne
      have := (norm2_nonneg fun i => A i j).lt_of_ne (Ne.symm hne)
      have := mul_neg_of_neg_of_pos (not_le.1 hη) this
      linarith
    simp only [hz, norm2_zero, mul_zero] at hA
    simp only [h0, norm2_zero, zero_mul] at e2
    have := mul_pos hA hy1
    linarith [hμ y]

/-- Non-vacuity: the 3×2 matrix with columns `2 e₀`, `3 e₂` in single precision meets the conditions of `C101_regular` and so those of `C101_solve`. -/
example : let A : Matrix (Fin (2 + 1)) (Fin (1 + 1)) ℝ := !![2, 0; 0, 0; 0, 3]
    let u : ℝ := (2 : ℝ) ^ (-((24 : ℕ) : ℤ))
    (∀ y, 2 * norm2 y ≤ norm2 (A.mulVec y)) ∧ (1 + u) ^ (2 * (2 + 1) + 7) < 2 ∧
    ((1 + 2 * reflectionsErr u (2 + 1) (1 + 1)) * (1 + u) ^ 2 - 1) * norm2 (fun j => norm2 fun i => A i j) < 2 := by
  intro A u
  have hA : A = !![2, 0; 0, 0; 0, 3] := rfl
  have hu : u = 1 / 16777216 := by norm_num [u]
  obtain ⟨s1, s2, s3⟩ := C100_size (u := u) (d := 2 + 1) (k := 1 + 1) (by rw [hu]; norm_num) (by rw [hu]; norm_num) (by rw [hu]; norm_num)
  refine ⟨fun y => ?_, s1, ?_⟩
  · rw [← abs_of_pos (by norm_num : (0 : ℝ) < 2), ← norm2_smul, hA]
    unfold norm2
    refine Real.sqrt_le_sqrt ?_
    simp [Fin.sum_univ_succ, Matrix.mulVec, dotProduct]
    nlinarith [sq_nonneg (y 1)]
  · have e : norm2 (fun j => norm2 fun i => A i j) ≤ 4 := by
      rw [hA]
      unfold norm2
      rw [Real.sqrt_le_left (by norm_num)]
      simp only [← norm2.eq_1, norm2_sq]
      norm_num [Fin.sum_univ_succ]
    have e0 := norm2_nonneg (fun j => norm2 fun i => A i j)
    have k1 : (1 + 2 * reflectionsErr u (2 + 1) (1 + 1)) * (1 + u) ^ 2 - 1 ≤ 1 / 4 := by
      have : reflectionsErr u (2 + 1) (1 + 1) ≤ 1 / 100 := s3.trans (by rw [hu]; norm_num)
      have h2 : (1 + u) ^ 2 ≤ 11 / 10 := by rw [hu]; norm_num
      have h3 : 0 ≤ (1 + u) ^ 2 := by positivity
      nlinarith
    exact (mul_le_mul_of_nonneg_right k1 e0).trans_lt ((mul_le_mul_of_nonneg_left e (by norm_num)).trans_lt (by norm_num))

end Mathter.Props
