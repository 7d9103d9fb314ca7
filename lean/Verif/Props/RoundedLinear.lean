import Verif.Lemmas.RoundedSolve
import Verif.Props.Matrix
import Verif.Props.RoundedReduce
import Mathlib.Algebra.Order.Ring.Pow

/-!
# Accuracy of matrix products (C82), stability of the triangular solvers (C83) and of LU and LUP (C84)

Claims about binary floating-point numbers with `p` significand bits, rounding to nearest, without overflow and underflow.
-/

namespace Mathter.Props
open Mathter
variable {c : Cfg} {r k n m : ℕ} {o : Order} {L L' : Layout} {p1 p2 : Bool}

/-! ## C82 -/

private theorem madd_arith {u g a s T q m w : ℝ} (hu : 0 ≤ u) (hg : u ≤ g) (hm : |m - s| ≤ g * T) (hs : |s| ≤ T) (hq : |q - a| ≤ u * |a|)
    (hw : |w - (q + m)| ≤ u * |q + m|) : |w - (s + a)| ≤ ((1 + g) * (1 + u) - 1) * (T + |a|) := by
  have t1 := abs_add_le (w - (q + m)) (q - a + (m - s))
  have t2 := abs_add_le (q - a) (m - s)
  have e : w - (q + m) + (q - a + (m - s)) = w - (s + a) := by ring
  rw [e] at t1
  have t3 := abs_add_le q m
  have t4 : |q| ≤ (1 + u) * |a| := by
    have := abs_sub_abs_le_abs_sub q a
    linarith
  have t5 : |m| ≤ (1 + g) * T := by
    have := abs_sub_abs_le_abs_sub m s
    linarith
  have h1 : u * |q + m| ≤ u * ((1 + u) * |a| + (1 + g) * T) := mul_le_mul_of_nonneg_left (by linarith) hu
  have h2 : (1 + u) * (1 + u) * |a| ≤ (1 + g) * (1 + u) * |a| := mul_le_mul_of_nonneg_right (by nlinarith) (abs_nonneg _)
  nlinarith

/-- One `MultiplyAdd`. -/
private theorem madd_step {fl : ℝ → ℝ} {u : ℝ} (h : Rounding fl u) {op : ℝ → ℝ → ℝ → ℝ} (hop : Fl.IsMulAdd fl op) {q : ℕ} (hq : 1 ≤ q) {a b s T m : ℝ}
    (hm : |m - s| ≤ ((1 + u) ^ q - 1) * T) (hs : |s| ≤ T) : |op a b m - (s + a * b)| ≤ ((1 + u) ^ (q + 1) - 1) * (T + |a * b|) := by
  have hu := h.u_nonneg
  have hg : u ≤ (1 + u) ^ q - 1 := by
    have : (1 + u) ^ 1 ≤ (1 + u) ^ q := pow_le_pow_right₀ (by linarith) hq
    linarith
  have e : (1 + u) ^ (q + 1) - 1 = (1 + ((1 + u) ^ q - 1)) * (1 + u) - 1 := by rw [pow_succ]; ring
  rw [e]
  rcases hop a b m with h1 | h1
  · rw [h1]; exact madd_arith hu hg hm hs (h.err _) (h.err _)
  · rw [h1]
    exact madd_arith (q := a * b) hu hg hm hs (by rw [sub_self, abs_zero]; exact mul_nonneg hu (abs_nonneg _)) (h.err _)

theorem psum_abs_le (f : Fin k → ℝ) (q : ℕ) : |psum f q| ≤ psum (fun i => |f i|) q := by
  unfold psum
  refine (Finset.abs_sum_le_sum_abs _ _).trans (Finset.sum_le_sum fun i _ => ?_)
  split <;> simp

theorem psum_one' [NeZero k] (f : Fin k → ℝ) : psum f 1 = f 0 := by
  have := psum_succ f (0 : Fin k)
  simpa [psum_zero] using this

/-- The operations behind one element of a product that is accumulated row by row. -/
noncomputable def accum [NeZero k] (fl : ℝ → ℝ) (op : ℝ → ℝ → ℝ → ℝ) (x y : Fin k → ℝ) : ℝ :=
  forUp k 1 (fun q s => op (x q) (y q) s) (fl (x 0 * y 0))

theorem accum_err [NeZero k] {fl : ℝ → ℝ} {u : ℝ} (h : Rounding fl u) {op : ℝ → ℝ → ℝ → ℝ} (hop : Fl.IsMulAdd fl op) (x y : Fin k → ℝ) :
    |accum fl op x y - ∑ q, x q * y q| ≤ ((1 + u) ^ k - 1) * ∑ q, |x q * y q| := by
  have hk : 1 ≤ k := Nat.one_le_iff_ne_zero.2 (NeZero.ne k)
  have := forUp_inv (n := k) (lo := 1) (body := fun q s => op (x q) (y q) s) (s := fl (x 0 * y 0))
    (fun q s => 1 ≤ q ∧ |s - psum (fun q => x q * y q) q| ≤ ((1 + u) ^ q - 1) * psum (fun q => |x q * y q|) q) hk ?_ ?_
  · have e := this.2
    rw [psum_all, psum_all] at e
    exact e
  · refine ⟨le_rfl, ?_⟩
    rw [psum_one', psum_one', pow_one, add_sub_cancel_left]
    exact h.err _
  · rintro q s - ⟨h1, h2⟩
    refine ⟨by omega, ?_⟩
    rw [psum_succ, psum_succ]
    exact madd_step h hop h1 h2 (psum_abs_le _ _)

theorem mulRR_get' [NeZero k] (fl : ℝ → ℝ) (op : ℝ → ℝ → ℝ → ℝ) (conv : Bool) (m0 : Mat c ℝ r n o .row (p1 && p2))
    (a : Mat c ℝ r k o .row p1) (b : Mat c ℝ k n o .row p2) (i : Fin r) (j : Fin n) :
    (Fl.mulRR fl op conv m0 a b).get i j = accum fl op (a.get i) (fun q => b.get q j) := by
  unfold Fl.mulRR
  apply Mat.get_outerRows (fun i j => accum fl op (a.get i) (fun q => b.get q j))
  intro i m i' j'
  have := forUp_rel (n := k) (lo := 1)
    (body := fun run (m : Mat c ℝ r n o .row (p1 && p2)) => m.setRow i (Vec.asPacked _ (Fl.multiplyAdd op conv
      (Vec.fill (a.get i run) : Vec c ℝ n (p1 && p2)) (b.stripes run) (m.stripes i))))
    (body' := fun q s => op (a.get i q) (b.get q j') s)
    (s := m.setRow i (Vec.asPacked _ (Vec.scalarOp conv (fun x y => fl (x * y)) (a.get i 0) (b.stripes 0)))) (t := fl (a.get i 0 * b.get 0 j'))
    (fun m' t => (∀ i', i' ≠ i → m'.get i' j' = m.get i' j') ∧ m'.get i j' = t)
    ⟨fun i' hi' => by rw [Mat.get_setRow, if_neg hi'], by
      rw [Mat.get_setRow, if_pos rfl]
      simp [Vec.scalarOp, Mat.get]⟩
    (by
      rintro q m' t ⟨h1, h2⟩
      refine ⟨fun i' hi' => by rw [Mat.get_setRow, if_neg hi', h1 i' hi'], ?_⟩
      rw [Mat.get_setRow, if_pos rfl, ← h2]
      simp [Fl.multiplyAdd, Mat.get])
  by_cases hi : i' = i
  · rw [if_pos hi, hi]; exact this.2
  · rw [if_neg hi]; exact this.1 i' hi

theorem mulC_get' [NeZero k] (fl : ℝ → ℝ) (op : ℝ → ℝ → ℝ → ℝ) (conv : Bool) (m0 : Mat c ℝ r n o .col (p1 && p2))
    (a : Mat c ℝ r k o .col p1) (b : Mat c ℝ k n o L p2) (i : Fin r) (j : Fin n) :
    (Fl.mulC fl op conv m0 a b).get i j = accum fl op (a.get i) (fun q => b.get q j) := by
  unfold Fl.mulC
  apply Mat.get_outerCols (fun i j => accum fl op (a.get i) (fun q => b.get q j))
  intro j m i' j'
  have := forUp_rel (n := k) (lo := 1)
    (body := fun run (m : Mat c ℝ r n o .col (p1 && p2)) => m.setCol j (Vec.asPacked _ (Fl.multiplyAdd op conv (a.stripes run)
      (Vec.fill (b.get run j) : Vec c ℝ r (p1 && p2)) (m.stripes j))))
    (body' := fun q s => op (a.get i' q) (b.get q j) s)
    (s := m.setCol j (Vec.asPacked _ (Vec.opScalar conv (fun x y => fl (x * y)) (a.stripes 0) (b.get 0 j)))) (t := fl (a.get i' 0 * b.get 0 j))
    (fun m' t => (∀ j', j' ≠ j → m'.get i' j' = m.get i' j') ∧ m'.get i' j = t)
    ⟨fun j' hj' => by rw [Mat.get_setCol, if_neg hj'], by
      rw [Mat.get_setCol, if_pos rfl]
      simp [Vec.opScalar, Mat.get]⟩
    (by
      rintro q m' t ⟨h1, h2⟩
      refine ⟨fun j' hj' => by rw [Mat.get_setCol, if_neg hj', h1 j' hj'], ?_⟩
      rw [Mat.get_setCol, if_pos rfl, ← h2]
      simp [Fl.multiplyAdd, Mat.get])
  by_cases hj : j' = j
  · rw [if_pos hj, hj]; exact this.2
  · rw [if_neg hj]; exact this.1 j' hj

theorem vecMulR_get' [NeZero k] (fl : ℝ → ℝ) (op : ℝ → ℝ → ℝ → ℝ) (conv : Bool) (v : Vec c ℝ k p1) (m : Mat c ℝ k n .follow .row p2) (j : Fin n) :
    (Fl.vecMulR fl op conv v m).get j = accum fl op v.get (fun q => m.get q j) := by
  unfold Fl.vecMulR accum
  exact forUp_rel (n := k) (lo := 1)
    (body := fun run (w : Vec c ℝ n (p2 && p2)) => Vec.asPacked _ (Fl.multiplyAdd op conv (Vec.fill (v.get run) : Vec c ℝ n (p2 && p2)) (m.stripes run) w))
    (body' := fun q s => op (v.get q) (m.get q j) s) (fun w t => w.get j = t) (by simp [Vec.scalarOp, Mat.get])
    (by rintro q w t rfl; simp [Fl.multiplyAdd, Mat.get])

/-- C82: the product of two matrices of floats, for every pair of layouts, packing, vectorisation and reduction order, and whether or not products and
sums are fused. -/
theorem C82_mul [NeZero k] {fl : ℝ → ℝ} {u : ℝ} (h : Rounding fl u) {op : ℝ → ℝ → ℝ → ℝ} (hop : Fl.IsMulAdd fl op) (conv : Bool)
    (tb : RTree (batchSize k false)) (ts : RTree (k + 1)) (htb : tb.Valid) (hts : ts.Valid) (m0 : Mat c ℝ r n o L (p1 && p2)) (a : Mat c ℝ r k o L p1)
    (b : Mat c ℝ k n o L' p2) (i : Fin r) (j : Fin n) :
    |(Fl.matMul fl op conv tb ts m0 a b).get i j - ∑ q, a.get i q * b.get q j| ≤ ((1 + u) ^ k - 1) * ∑ q, |a.get i q * b.get q j| := by
  cases L
  · cases L'
    · simp only [Fl.matMul]; rw [mulRR_get']; exact accum_err h hop _ _
    · simp only [Fl.matMul, Fl.mulRC, Mat.get_fillLoop]
      exact C76_dot h conv tb ts htb hts (a.stripes i) (b.stripes j)
  · simp only [Fl.matMul]; rw [mulC_get']; exact accum_err h hop _ _

/-- C82: vector × matrix of floats. -/
theorem C82_vec_mul [NeZero k] {fl : ℝ → ℝ} {u : ℝ} (h : Rounding fl u) {op : ℝ → ℝ → ℝ → ℝ} (hop : Fl.IsMulAdd fl op) (conv : Bool)
    (tb : RTree (batchSize k false)) (ts : RTree (k + 1)) (htb : tb.Valid) (hts : ts.Valid) (v0 : Vec c ℝ n (p1 && p2)) (v : Vec c ℝ k p1)
    (m : Mat c ℝ k n .follow L p2) (j : Fin n) :
    |Fl.vecMul fl op conv tb ts v0 v m j - ∑ q, v.get q * m.get q j| ≤ ((1 + u) ^ k - 1) * ∑ q, |v.get q * m.get q j| := by
  cases L
  · simp only [Fl.vecMul]; rw [vecMulR_get']; exact accum_err h hop _ _
  · simp only [Fl.vecMul, Fl.vecMulC, Vec.get_setLoop]
    exact C76_dot h conv tb ts htb hts v (m.stripes j)

/-- C82: matrix × vector of floats. -/
theorem C82_mul_vec [NeZero k] {fl : ℝ → ℝ} {u : ℝ} (h : Rounding fl u) {op : ℝ → ℝ → ℝ → ℝ} (hop : Fl.IsMulAdd fl op) (conv : Bool)
    (tb : RTree (batchSize k false)) (ts : RTree (k + 1)) (htb : tb.Valid) (hts : ts.Valid) (v0 : Vec c ℝ n (p2 && p1)) (f0 : Mat c ℝ k n .follow L.flip p1)
    (m : Mat c ℝ n k .precede L p1) (v : Vec c ℝ k p2) (i : Fin n) :
    |Fl.mulVec fl op conv tb ts v0 f0 m v i - ∑ q, m.get i q * v.get q| ≤ ((1 + u) ^ k - 1) * ∑ q, |m.get i q * v.get q| := by
  have := C82_vec_mul h hop conv tb ts htb hts v0 v (Mat.flipLayoutAndOrder (o := .precede) f0 m) i
  have e : ∀ q, (Mat.flipLayoutAndOrder (o := .precede) f0 m).get q i = m.get i q := fun q =>
    congrFun (congrFun (C21_convert_order (o := .precede) f0 m) q) i
  simp only [e, mul_comm (v.get _)] at this
  exact this

/-- Non-vacuity: round-to-nearest is such a rounding, and both the fused and the separate operation are allowed. -/
example : Rounding (flAway 24) ((2 : ℝ) ^ (-((24 : ℕ) : ℤ))) ∧ Fl.IsMulAdd (flAway 24) (fun a b d => flAway 24 (a * b + d)) ∧
    Fl.IsMulAdd (flAway 24) (fun a b d => flAway 24 (flAway 24 (a * b) + d)) :=
  ⟨(flAway_roundsToNearest (by norm_num)).rounding (by norm_num), fun _ _ _ => Or.inr rfl, fun _ _ _ => Or.inl rfl⟩

/-! ## C83 -/

/-- What `k` operations with `p`-bit floats add up to: `1 / (1 - 2^-p)^k - 1`, about `k * 2^-p`. -/
noncomputable def roundoff (p k : ℕ) : ℝ := (1 / (1 - (2 : ℝ) ^ (-(p : ℤ)))) ^ k - 1

private theorem unit_lt {p : ℕ} (hp : 1 ≤ p) : (2 : ℝ) ^ (-(p : ℤ)) < 1 := by
  rw [zpow_neg, zpow_natCast]
  exact inv_lt_one_of_one_lt₀ (one_lt_pow₀ (by norm_num) (by omega))

/-- `roundoff` is below the usual bound `k u / (1 - k u)`. -/
theorem C83_roundoff {p k : ℕ} (hp : 1 ≤ p) (hk : k * (2 : ℝ) ^ (-(p : ℤ)) < 1) :
    0 ≤ roundoff p k ∧ roundoff p k ≤ k * (2 : ℝ) ^ (-(p : ℤ)) / (1 - k * (2 : ℝ) ^ (-(p : ℤ))) := by
  have h1 := unit_lt hp
  have h0 : (0 : ℝ) ≤ (2 : ℝ) ^ (-(p : ℤ)) := by positivity
  unfold roundoff
  set u := (2 : ℝ) ^ (-(p : ℤ))
  refine ⟨Fl.growth_nonneg h0 h1 k, ?_⟩
  have b : 1 + k * (-u) ≤ (1 + -u) ^ k := one_add_mul_le_pow (by linarith) k
  have e : 1 + k * (-u) = 1 - k * u := by ring
  rw [e] at b
  have hpos : 0 < 1 - k * u := by linarith
  have : (1 / (1 - u)) ^ k ≤ 1 / (1 - k * u) := by
    rw [div_pow, one_pow]
    exact one_div_le_one_div_of_le hpos (by simpa [sub_eq_add_neg] using b)
  have e2 : k * u / (1 - k * u) = 1 / (1 - k * u) - 1 := by field_simp; ring
  rw [e2]; linarith

private theorem fix {p : ℕ} {fl : ℝ → ℝ} (h : RoundsToNearest p fl) {x : ℝ} (hx : IsFloat p x) : fl x = x := by
  have := h.nearest x x hx
  rw [sub_self, abs_zero] at this
  exact sub_eq_zero.1 (abs_eq_zero.1 (le_antisymm this (abs_nonneg _)))

private theorem float_zero (p : ℕ) : IsFloat p 0 := ⟨0, 0, by simp, by positivity⟩

private theorem float_one {p : ℕ} (hp : 1 ≤ p) : IsFloat p 1 := ⟨1, 0, by simp, by simpa using one_lt_pow₀ (by norm_num : (1 : ℤ) < 2) (by omega : p ≠ 0)⟩

private theorem le_one {p : ℕ} (hp : 1 ≤ p) {fl : ℝ → ℝ} (h : RoundsToNearest p fl) (x : ℝ) (hx : |x| ≤ 1) : |fl x| ≤ 1 := by
  obtain ⟨a, b⟩ := abs_le.1 hx
  rw [abs_le]
  constructor
  · by_contra hc
    have hc := not_le.1 hc
    have := h.nearest x (-1) (by obtain ⟨m, e, h1, h2⟩ := float_one hp; exact ⟨-m, e, by push_cast; linarith, by rwa [abs_neg]⟩)
    rw [abs_of_neg (by linarith), abs_of_nonpos (by linarith)] at this
    linarith
  · by_contra hc
    have hc := not_le.1 hc
    have := h.nearest x 1 (float_one hp)
    rw [abs_of_pos (by linarith), abs_of_nonneg (by linarith)] at this
    linarith

/-- C83: every column of the result of `SolveUpperTriangular` is the exact solution for a matrix that differs from `A` only by relative perturbations of
its elements, of the size of `n` rounding errors. -/
theorem C83_upper {p : ℕ} (hp : 1 ≤ p) {fl : ℝ → ℝ} (h : RoundsToNearest p fl) {op : ℝ → ℝ → ℝ → ℝ} (hop : Fl.IsMulSub fl op)
    (A : Matrix (Fin n) (Fin n) ℝ) (b : Matrix (Fin n) (Fin m) ℝ) (hA : ∀ i j, IsFloat p (A i j)) (ht : ∀ i j, j < i → A i j = 0) (hd : ∀ i, A i i ≠ 0) :
    ∃ X, Fl.solveUpper fl op A b = some X ∧ ∀ j, ∃ D : Matrix (Fin n) (Fin n) ℝ, (∀ i q, |D i q| ≤ roundoff p n * |A i q|) ∧
      (A + D).mulVec (fun q => X q j) = fun i => b i j := by
  have hr := h.rounding hp
  obtain ⟨X, hX, hres⟩ := Fl.solveUpper_residual hr (unit_lt hp) hop (fix h (float_zero p)) (fix h (float_one hp)) A b (fun i j => fix h (hA i j)) ht hd
  exact ⟨X, hX, fun j => Fl.perturb (Fl.growth_nonneg hr.u_nonneg (unit_lt hp) n) (fun i => hres i j)⟩

/-- C83: the same for `SolveLowerTriangular`. -/
theorem C83_lower {p : ℕ} (hp : 1 ≤ p) {fl : ℝ → ℝ} (h : RoundsToNearest p fl) {op : ℝ → ℝ → ℝ → ℝ} (hop : Fl.IsMulSub fl op)
    (A : Matrix (Fin n) (Fin n) ℝ) (b : Matrix (Fin n) (Fin m) ℝ) (hA : ∀ i j, IsFloat p (A i j)) (ht : ∀ i j, i < j → A i j = 0) (hd : ∀ i, A i i ≠ 0) :
    ∃ X, Fl.solveLower fl op A b = some X ∧ ∀ j, ∃ D : Matrix (Fin n) (Fin n) ℝ, (∀ i q, |D i q| ≤ roundoff p n * |A i q|) ∧
      (A + D).mulVec (fun q => X q j) = fun i => b i j := by
  have hr := h.rounding hp
  obtain ⟨X, hX, hres⟩ := Fl.solveLower_residual hr (unit_lt hp) hop (fix h (float_zero p)) (fix h (float_one hp)) A b (fun i j => fix h (hA i j)) ht hd
  exact ⟨X, hX, fun j => Fl.perturb (Fl.growth_nonneg hr.u_nonneg (unit_lt hp) n) (fun i => hres i j)⟩

private theorem transpose_row {A D : Matrix (Fin n) (Fin n) ℝ} {x b : Fin n → ℝ} (h : (A.transpose + D).mulVec x = b) :
    Matrix.vecMul x (A + D.transpose) = b := by
  rw [← h, ← Matrix.vecMul_transpose, Matrix.transpose_add, Matrix.transpose_transpose]

/-- C83: `SolveUpperTriangular` for follow-vector order solves `x A = b`, row by row. -/
theorem C83_upper_follow {p : ℕ} (hp : 1 ≤ p) {fl : ℝ → ℝ} (h : RoundsToNearest p fl) {op : ℝ → ℝ → ℝ → ℝ} (hop : Fl.IsMulSub fl op)
    (A : Matrix (Fin n) (Fin n) ℝ) (b : Matrix (Fin m) (Fin n) ℝ) (hA : ∀ i j, IsFloat p (A i j)) (ht : ∀ i j, j < i → A i j = 0) (hd : ∀ i, A i i ≠ 0) :
    ∃ X, Fl.solveUpperFollow fl op A b = some X ∧ ∀ j, ∃ D : Matrix (Fin n) (Fin n) ℝ, (∀ i q, |D i q| ≤ roundoff p n * |A i q|) ∧
      Matrix.vecMul (X j) (A + D) = b j := by
  obtain ⟨X, hX, hb⟩ := C83_lower hp h hop A.transpose b.transpose (fun i j => hA j i) (fun i j hij => ht j i hij) hd
  refine ⟨X.transpose, by unfold Fl.solveUpperFollow; rw [hX]; rfl, fun j => ?_⟩
  obtain ⟨D, hD, e⟩ := hb j
  exact ⟨D.transpose, fun i q => hD q i, transpose_row e⟩

/-- C83: `SolveLowerTriangular` for follow-vector order. -/
theorem C83_lower_follow {p : ℕ} (hp : 1 ≤ p) {fl : ℝ → ℝ} (h : RoundsToNearest p fl) {op : ℝ → ℝ → ℝ → ℝ} (hop : Fl.IsMulSub fl op)
    (A : Matrix (Fin n) (Fin n) ℝ) (b : Matrix (Fin m) (Fin n) ℝ) (hA : ∀ i j, IsFloat p (A i j)) (ht : ∀ i j, i < j → A i j = 0) (hd : ∀ i, A i i ≠ 0) :
    ∃ X, Fl.solveLowerFollow fl op A b = some X ∧ ∀ j, ∃ D : Matrix (Fin n) (Fin n) ℝ, (∀ i q, |D i q| ≤ roundoff p n * |A i q|) ∧
      Matrix.vecMul (X j) (A + D) = b j := by
  obtain ⟨X, hX, hb⟩ := C83_upper hp h hop A.transpose b.transpose (fun i j => hA j i) (fun i j hij => ht j i hij) hd
  refine ⟨X.transpose, by unfold Fl.solveLowerFollow; rw [hX]; rfl, fun j => ?_⟩
  obtain ⟨D, hD, e⟩ := hb j
  exact ⟨D.transpose, fun i q => hD q i, transpose_row e⟩

/-- Non-vacuity: single precision, a 2×2 upper triangular matrix of floats. -/
example : RoundsToNearest 24 (flAway 24) ∧ Fl.IsMulSub (flAway 24) (fun a b d => flAway 24 (a - flAway 24 (b * d))) ∧
    (∀ i j, IsFloat 24 ((!![3, 1; 0, 7] : Matrix (Fin 2) (Fin 2) ℝ) i j)) ∧ (∀ i j : Fin 2, j < i → (!![3, 1; 0, 7] : Matrix (Fin 2) (Fin 2) ℝ) i j = 0) ∧
    ∀ i, (!![3, 1; 0, 7] : Matrix (Fin 2) (Fin 2) ℝ) i i ≠ 0 := by
  refine ⟨flAway_roundsToNearest (by norm_num), fun _ _ _ => Or.inl rfl, fun i j => ?_, fun i j hij => ?_, fun i => ?_⟩
  · fin_cases i <;> fin_cases j
    · exact ⟨3, 0, by norm_num, by norm_num⟩
    · exact ⟨1, 0, by norm_num, by norm_num⟩
    · exact ⟨0, 0, by norm_num, by norm_num⟩
    · exact ⟨7, 0, by norm_num, by norm_num⟩
  · fin_cases i <;> fin_cases j <;> simp_all
  · fin_cases i <;> norm_num

/-! ## C84 -/

/-- C84: `DecomposeLU`, whenever it meets no zero pivot: the triangular factors multiply to `A` up to a componentwise small error. -/
theorem C84_lu {p : ℕ} (hp : 1 ≤ p) {fl : ℝ → ℝ} (h : RoundsToNearest p fl) {op : ℝ → ℝ → ℝ → ℝ} (hop : Fl.IsMulSub fl op)
    (A : Matrix (Fin (n + 1)) (Fin (n + 1)) ℝ) (hA : ∀ i j, IsFloat p (A i j)) (d : LU ℝ (n + 1)) (hd : Fl.decomposeLU fl op A = some d) :
    (∀ i, d.L i i = 1) ∧ (∀ i j, i < j → d.L i j = 0) ∧ (∀ i j, j < i → d.U i j = 0) ∧
    ∀ i j, |(d.L * d.U) i j - A i j| ≤ roundoff p n * ∑ q, |d.L i q| * |d.U q j| :=
  (Fl.decomposeLU_inv (h.rounding hp) (unit_lt hp) hop (fix h (float_zero p)) (fix h (float_one hp)) (fun i j => fix h (hA i j)) hd).final

/-- C84: `DecomposeLUP` of any matrix of floats: a permutation, triangular factors, multipliers of at most 1 (so `|L|` cannot amplify), and a
componentwise small residual. -/
theorem C84_lup {p : ℕ} (hp : 1 ≤ p) {fl : ℝ → ℝ} (h : RoundsToNearest p fl) {op : ℝ → ℝ → ℝ → ℝ} (hop : Fl.IsMulSub fl op)
    (A : Matrix (Fin (n + 1)) (Fin (n + 1)) ℝ) (hA : ∀ i j, IsFloat p (A i j)) :
    let d := Fl.decomposeLUP fl op A
    Function.Bijective d.P ∧ (∀ i, d.L i i = 1) ∧ (∀ i j, i < j → d.L i j = 0) ∧ (∀ i j, |d.L i j| ≤ 1) ∧ (∀ i j, j < i → d.U i j = 0) ∧
    ∀ i j, |(d.L * d.U) i j - A (d.P i) j| ≤ roundoff p n * ∑ q, |d.L i q| * |d.U q j| := by
  have inv := Fl.decomposeLUP_inv (h.rounding hp) (unit_lt hp) hop (fix h (float_zero p)) (fix h (float_one hp)) (le_one hp h) (fun i j => fix h (hA i j))
  obtain ⟨a, b, e, f⟩ := inv.lu.final
  exact ⟨Finite.injective_iff_bijective.1 inv.inj, a, b, inv.bound, e, f⟩

private theorem isFloat_of_fix {p : ℕ} {fl : ℝ → ℝ} (h : RoundsToNearest p fl) {x : ℝ} (hx : fl x = x) : IsFloat p x := hx ▸ h.mem x

/-- C84: `DecompositionLU::Solve` on the rounded factors: each column of the result solves a system that differs from `A` by a small multiple of
`|L| |U|`. -/
theorem C84_lu_solve {p : ℕ} (hp : 1 ≤ p) {fl : ℝ → ℝ} (h : RoundsToNearest p fl) {op : ℝ → ℝ → ℝ → ℝ} (hop : Fl.IsMulSub fl op)
    (A : Matrix (Fin (n + 1)) (Fin (n + 1)) ℝ) (hA : ∀ i j, IsFloat p (A i j)) (d : LU ℝ (n + 1)) (hd : Fl.decomposeLU fl op A = some d)
    (hU : ∀ i, d.U i i ≠ 0) (b : Matrix (Fin (n + 1)) (Fin m) ℝ) :
    ∃ X, Fl.luSolve fl op d.L d.U b = some X ∧ ∀ j, ∃ D : Matrix (Fin (n + 1)) (Fin (n + 1)) ℝ,
      (∀ i q, |D i q| ≤ roundoff p (3 * n + 2) * ∑ t, |d.L i t| * |d.U t q|) ∧ (A + D).mulVec (fun q => X q j) = fun i => b i j := by
  have inv := Fl.decomposeLU_inv (h.rounding hp) (unit_lt hp) hop (fix h (float_zero p)) (fix h (float_one hp)) (fun i j => fix h (hA i j)) hd
  obtain ⟨a1, a2, a3, a4⟩ := inv.final
  obtain ⟨Y, hY, hYb⟩ := C83_lower hp h hop d.L b (fun i j => isFloat_of_fix h (inv.fixL i j)) a2 (fun i => by rw [a1 i]; exact one_ne_zero)
  obtain ⟨X, hX, hXb⟩ := C83_upper hp h hop d.U Y (fun i j => isFloat_of_fix h (inv.fixU i j)) a3 hU
  refine ⟨X, by unfold Fl.luSolve; rw [hY]; exact hX, fun j => ?_⟩
  obtain ⟨DL, hDL, eL⟩ := hYb j
  obtain ⟨DU, hDU, eU⟩ := hXb j
  refine ⟨(d.L + DL) * (d.U + DU) - A, fun i q => ?_, ?_⟩
  · have := Fl.compose (h.rounding hp).u_nonneg (unit_lt hp) a4 hDL hDU i q
    rwa [show n + 2 * (n + 1) = 3 * n + 2 by ring] at this
  · rw [add_sub_cancel, ← Matrix.mulVec_mulVec, eU, eL]

/-- C84: `DecompositionLUP::Solve` on the rounded factors, unless a diagonal element of `U` is zero. -/
theorem C84_lup_solve {p : ℕ} (hp : 1 ≤ p) {fl : ℝ → ℝ} (h : RoundsToNearest p fl) {op : ℝ → ℝ → ℝ → ℝ} (hop : Fl.IsMulSub fl op)
    (A : Matrix (Fin (n + 1)) (Fin (n + 1)) ℝ) (hA : ∀ i j, IsFloat p (A i j)) (hU : ∀ i, (Fl.decomposeLUP fl op A).U i i ≠ 0)
    (b0 b : Matrix (Fin (n + 1)) (Fin m) ℝ) :
    let d := Fl.decomposeLUP fl op A
    ∃ X, Fl.lupSolve fl op d b0 b = some X ∧ ∀ j, ∃ D : Matrix (Fin (n + 1)) (Fin (n + 1)) ℝ,
      (∀ i q, |D (d.P i) q| ≤ roundoff p (3 * n + 2) * ∑ t, |d.L i t| * |d.U t q|) ∧ (A + D).mulVec (fun q => X q j) = fun i => b i j := by
  intro d
  have inv := Fl.decomposeLUP_inv (h.rounding hp) (unit_lt hp) hop (fix h (float_zero p)) (fix h (float_one hp)) (le_one hp h) (fun i j => fix h (hA i j))
  obtain ⟨a1, a2, a3, a4⟩ := inv.lu.final
  obtain ⟨Y, hY, hYb⟩ := C83_lower hp h hop d.L (permuteRows d.P b0 b) (fun i j => isFloat_of_fix h (inv.lu.fixL i j)) a2
    (fun i => by rw [a1 i]; exact one_ne_zero)
  obtain ⟨X, hX, hXb⟩ := C83_upper hp h hop d.U Y (fun i j => isFloat_of_fix h (inv.lu.fixU i j)) a3 hU
  refine ⟨X, by unfold Fl.lupSolve Fl.luSolve; rw [hY]; exact hX, fun j => ?_⟩
  obtain ⟨DL, hDL, eL⟩ := hYb j
  obtain ⟨DU, hDU, eU⟩ := hXb j
  obtain ⟨Q, hQ1, hQ2⟩ := Function.bijective_iff_has_inverse.1 (Finite.injective_iff_bijective.1 inv.inj)
  have key : ∀ i, ∑ q, ((d.L + DL) * (d.U + DU)) i q * X q j = b (d.P i) j := by
    have e : ((d.L + DL) * (d.U + DU)).mulVec (fun q => X q j) = fun i => (permuteRows d.P b0 b) i j := by
      rw [← Matrix.mulVec_mulVec, eU, eL]
    intro i
    have := congrFun e i
    rw [permuteRows_eq] at this
    exact this
  refine ⟨Matrix.of fun i q => ((d.L + DL) * (d.U + DU)) (Q i) q - A i q, fun i q => ?_, ?_⟩
  · have := Fl.compose (h.rounding hp).u_nonneg (unit_lt hp) a4 hDL hDU i q
    rw [show n + 2 * (n + 1) = 3 * n + 2 by ring] at this
    have e : Q (d.P i) = i := hQ1 i
    rw [Matrix.of_apply, e]
    exact this
  · ext i
    have := key (Q i)
    rw [show d.P (Q i) = i from hQ2 i] at this
    rw [← this]
    simp [Matrix.mulVec, dotProduct]

/-- C84: `DecompositionLUP::Solve` for follow-vector order (`x A = b`). -/
theorem C84_lup_solve_follow {p : ℕ} (hp : 1 ≤ p) {fl : ℝ → ℝ} (h : RoundsToNearest p fl) {op : ℝ → ℝ → ℝ → ℝ} (hop : Fl.IsMulSub fl op)
    (A : Matrix (Fin (n + 1)) (Fin (n + 1)) ℝ) (hA : ∀ i j, IsFloat p (A i j)) (hU : ∀ i, (Fl.decomposeLUP fl op A).U i i ≠ 0)
    (b0 b : Matrix (Fin m) (Fin (n + 1)) ℝ) :
    let d := Fl.decomposeLUP fl op A
    ∃ X, Fl.lupSolveFollow fl op d b0 b = some X ∧ ∀ j, ∃ D : Matrix (Fin (n + 1)) (Fin (n + 1)) ℝ,
      (∀ i q, |D (d.P i) q| ≤ roundoff p (3 * n + 2) * ∑ t, |d.L i t| * |d.U t q|) ∧ Matrix.vecMul (X j) (A + D) = b j := by
  intro d
  have inv := Fl.decomposeLUP_inv (h.rounding hp) (unit_lt hp) hop (fix h (float_zero p)) (fix h (float_one hp)) (le_one hp h) (fun i j => fix h (hA i j))
  obtain ⟨a1, a2, a3, a4⟩ := inv.lu.final
  obtain ⟨Y, hY, hYb⟩ := C83_upper_follow hp h hop d.U b (fun i j => isFloat_of_fix h (inv.lu.fixU i j)) a3 hU
  obtain ⟨X, hX, hXb⟩ := C83_lower_follow hp h hop d.L Y (fun i j => isFloat_of_fix h (inv.lu.fixL i j)) a2 (fun i => by rw [a1 i]; exact one_ne_zero)
  refine ⟨inversePermuteCols d.P b0 X, by unfold Fl.lupSolveFollow Fl.luSolveFollow; rw [hY, Option.bind_some, hX]; rfl, fun j => ?_⟩
  obtain ⟨DU, hDU, eU⟩ := hYb j
  obtain ⟨DL, hDL, eL⟩ := hXb j
  obtain ⟨Q, hQ1, hQ2⟩ := Function.bijective_iff_has_inverse.1 (Finite.injective_iff_bijective.1 inv.inj)
  have e : Matrix.vecMul (X j) ((d.L + DL) * (d.U + DU)) = b j := by rw [← Matrix.vecMul_vecMul, eL, eU]
  refine ⟨Matrix.of fun i q => ((d.L + DL) * (d.U + DU)) (Q i) q - A i q, fun i q => ?_, ?_⟩
  · have := Fl.compose (h.rounding hp).u_nonneg (unit_lt hp) a4 hDL hDU i q
    rw [show n + 2 * (n + 1) = 3 * n + 2 by ring] at this
    have e : Q (d.P i) = i := hQ1 i
    rw [Matrix.of_apply, e]
    exact this
  · rw [← e]
    ext q
    simp only [Matrix.vecMul, dotProduct, Matrix.add_apply, Matrix.of_apply, add_sub_cancel]
    rw [← (Equiv.ofBijective d.P (Finite.injective_iff_bijective.1 inv.inj)).sum_comp]
    refine Finset.sum_congr rfl fun i _ => ?_
    rw [Equiv.ofBijective_apply, show Q (d.P i) = i from hQ1 i, inversePermuteCols_apply d.P inv.inj]

/-- C84: the generic `Inverse` (dimensions 1 and 5 and above): each column is the exact solution of a perturbed system. -/
theorem C84_inverse {p : ℕ} (hp : 1 ≤ p) {fl : ℝ → ℝ} (h : RoundsToNearest p fl) {op : ℝ → ℝ → ℝ → ℝ} (hop : Fl.IsMulSub fl op)
    (A : Matrix (Fin (n + 1)) (Fin (n + 1)) ℝ) (hA : ∀ i j, IsFloat p (A i j)) (hU : ∀ i, (Fl.decomposeLUP fl op A).U i i ≠ 0)
    (b0 : Matrix (Fin (n + 1)) (Fin (n + 1)) ℝ) :
    let d := Fl.decomposeLUP fl op A
    ∃ X, Fl.inverseLUP fl op b0 A = some X ∧ ∀ j, ∃ D : Matrix (Fin (n + 1)) (Fin (n + 1)) ℝ,
      (∀ i q, |D (d.P i) q| ≤ roundoff p (3 * n + 2) * ∑ t, |d.L i t| * |d.U t q|) ∧
      (A + D).mulVec (fun q => X q j) = fun i => if i = j then 1 else 0 := by
  intro d
  obtain ⟨X, hX, hb⟩ := C84_lup_solve hp h hop A hA hU b0 (1 : Matrix (Fin (n + 1)) (Fin (n + 1)) ℝ)
  refine ⟨X, hX, fun j => ?_⟩
  obtain ⟨D, hD, e⟩ := hb j
  exact ⟨D, hD, by rw [e]; funext i; rw [Matrix.one_apply]⟩

/-- Non-vacuity: `A = [2 1; 1 3]` in single precision has no zero pivots in either decomposition (all results are exact here). -/
example {fl : ℝ → ℝ} (h : RoundsToNearest 24 fl) :
    (∃ d, Fl.decomposeLU fl (fun a b d => fl (a - fl (b * d))) !![2, 1; 1, 3] = some d ∧ ∀ i, d.U i i ≠ 0) ∧
    ∀ i, (Fl.decomposeLUP fl (fun a b d => fl (a - fl (b * d))) !![2, 1; 1, 3]).U i i ≠ 0 := by
  have e1 : fl (1 / 2) = 1 / 2 := fix h ⟨1, -1, by norm_num, by norm_num⟩
  have e2 : fl (3 - 1 / 2) = 5 / 2 := by rw [show (3 - 1 / 2 : ℝ) = 5 / 2 by norm_num]; exact fix h ⟨5, -1, by norm_num, by norm_num⟩
  have hpiv : maxElementIdx (fun i : Fin 2 => |(!![2, 1; 1, 3] : Matrix (Fin 2) (Fin 2) ℝ) i 0|) 0 = 0 := by
    unfold maxElementIdx
    rw [forUp_step (by norm_num), forUp_ge (by norm_num)]
    simp
  constructor
  · refine ⟨_, by unfold Fl.decomposeLU; rw [forUp_step (by norm_num), forUp_ge (by norm_num)]; simp only [Option.bind_some]; rw [if_neg (by norm_num)], ?_⟩
    intro i
    rw [show (0 : ℕ) + 1 = (0 : Fin 2).val + 1 from rfl]
    have := Fl.luElim_loop fl (fun a b d => fl (a - fl (b * d))) (0 : Fin 2) ((!![2, 1; 1, 3] : Matrix (Fin 2) (Fin 2) ℝ) 0) ⟨1, !![2, 1; 1, 3]⟩
    change (forUp 2 ((0 : Fin 2).val + 1) (fun row => Fl.luElim fl (fun a b d => fl (a - fl (b * d))) (0 : Fin 2) row
      ((!![2, 1; 1, 3] : Matrix (Fin 2) (Fin 2) ℝ) 0)) ⟨1, !![2, 1; 1, 3]⟩).U i i ≠ 0
    rw [this]
    fin_cases i
    · norm_num
    · norm_num [e1]
      norm_num at e2
      norm_num [e2]
  · intro i
    unfold Fl.decomposeLUP
    rw [forUp_step (by norm_num), forUp_ge (by norm_num)]
    change (Fl.lupStep fl _ (0 : Fin 2) ⟨1, !![2, 1; 1, 3], id⟩).U i i ≠ 0
    unfold Fl.lupStep
    simp only [hpiv]
    rw [if_pos (by norm_num), Fl.luElim_loop]
    fin_cases i
    · norm_num [Matrix.updateRow_apply]
    · norm_num [Matrix.updateRow_apply, e1]
      norm_num at e2
      norm_num [e2]

end Mathter.Props
