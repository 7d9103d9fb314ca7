import Verif.Model.RoundedComplexMatrix
import Verif.Props.RoundedComplex
import Verif.Props.RoundedLinear
import Verif.Lemmas.RoundedArea

/-!
# C144: rounding errors of products of complex matrices
-/

namespace Mathter.Props
open Mathter
variable {c : Cfg} {r k n : ℕ} {o : Order} {L L' : Layout} {p1 p2 : Bool} {fl : ℝ → ℝ} {u : ℝ}

/-- One step of the accumulation, part by part: the old sum has `q` rounding errors, the new one `q + 2`. -/
private theorem maddC_step (h : Rounding fl u) {ps pd : ℝ → ℝ → ℝ → ℝ → ℝ} (hps : Fl.IsProdSum fl ps) (hpd : Fl.IsProdDiff fl pd) {op : ℂ → ℂ → ℂ → ℂ}
    (hop : Fl.IsMulAddC fl ps pd op) {q : ℕ} (hq : 2 ≤ q) {a b m s : ℂ} {T : ℝ} (hr : Near u q m.re s.re T) (hi : Near u q m.im s.im T) :
    Near u (q + 2) (op a b m).re (s + a * b).re (T + (|a.re| * |b.re| + |a.im| * |b.im|)) ∧
    Near u (q + 2) (op a b m).im (s + a * b).im (T + (|a.re| * |b.im| + |a.im| * |b.re|)) := by
  have ex : ∀ x y : ℝ, Near u q (x * y) (x * y) (|x| * |y|) := fun x y =>
    ((Near.exact (u := u) x).prod h (Near.exact y)).mono h (by omega)
  have ex1 : ∀ x y : ℝ, Near u q (fl (x * y)) (x * y) (|x| * |y|) := fun x y =>
    (((Near.exact (u := u) x).prod h (Near.exact y)).round h).mono h (by omega)
  obtain ⟨h1, h2⟩ := hop a b m
  rw [Complex.add_re, Complex.add_im, Complex.mul_re, Complex.mul_im]
  constructor
  · rcases h1 with e | ⟨w, hw, he⟩
    · rw [e]
      have := (((Near.pd h hpd (Near.exact (u := u) a.re) (Near.exact b.re) (Near.exact a.im) (Near.exact b.im)).mono h hq).add hr).round h
      exact (this.mono h (Nat.le_succ _)).congr rfl (by ring) (by ring)
    · have n1 : Near u (q + 1) w (a.im * b.im - s.re) (|a.im| * |b.im| + T) := by
        rcases hw with e | e <;> rw [e]
        · exact ((ex _ _).sub hr).round h
        · exact ((ex1 _ _).sub hr).round h
      rcases he with e | e <;> rw [e]
      · exact ((((ex a.re b.re).mono h (Nat.le_succ _)).sub n1).round h).congr rfl (by ring) (by ring)
      · exact ((((ex1 a.re b.re).mono h (Nat.le_succ _)).sub n1).round h).congr rfl (by ring) (by ring)
  · rcases h2 with e | ⟨w, hw, he⟩
    · rw [e]
      have := (((complex_near_ps h hps a.re b.im a.im b.re).mono h hq).add hi).round h
      exact (this.mono h (Nat.le_succ _)).congr rfl (by ring) (by ring)
    · have n1 : Near u (q + 1) w (a.im * b.re + s.im) (|a.im| * |b.re| + T) := by
        rcases hw with e | e <;> rw [e]
        · exact ((ex _ _).add hi).round h
        · exact ((ex1 _ _).add hi).round h
      rcases he with e | e <;> rw [e]
      · exact ((((ex a.re b.im).mono h (Nat.le_succ _)).add n1).round h).congr rfl (by ring) (by ring)
      · exact ((((ex1 a.re b.im).mono h (Nat.le_succ _)).add n1).round h).congr rfl (by ring) (by ring)

/-- The operations behind one element of a product that is accumulated row by row. -/
private noncomputable def accumC [NeZero k] (mul : ℂ → ℂ → ℂ) (op : ℂ → ℂ → ℂ → ℂ) (x y : Fin k → ℂ) : ℂ :=
  forUp k 1 (fun q s => op (x q) (y q) s) (mul (x 0) (y 0))

private theorem near_le {y x M M' : ℝ} {q : ℕ} (h : Rounding fl u) (a : Near u q y x M) (hM : M ≤ M') : Near u q y x M' :=
  ⟨a.err.trans (mul_le_mul_of_nonneg_left hM (by linarith [h.one_le q])), a.bound.trans hM⟩

private theorem accumC_err [NeZero k] (h : Rounding fl u) {ps pd : ℝ → ℝ → ℝ → ℝ → ℝ} (hps : Fl.IsProdSum fl ps) (hpd : Fl.IsProdDiff fl pd)
    {op : ℂ → ℂ → ℂ → ℂ} (hop : Fl.IsMulAddC fl ps pd op) (x y : Fin k → ℂ) :
    Near u (2 * k) (accumC (Fl.prodC ps pd) op x y).re (∑ q, x q * y q).re (∑ q, ‖x q‖ * ‖y q‖) ∧
    Near u (2 * k) (accumC (Fl.prodC ps pd) op x y).im (∑ q, x q * y q).im (∑ q, ‖x q‖ * ‖y q‖) := by
  have hk : 1 ≤ k := Nat.one_le_iff_ne_zero.2 (NeZero.ne k)
  have := forUp_inv (n := k) (lo := 1) (body := fun q s => op (x q) (y q) s) (s := Fl.prodC ps pd (x 0) (y 0))
    (fun q s => 1 ≤ q ∧ Near u (2 * q) s.re (psum (fun q => x q * y q) q).re (psum (fun q => ‖x q‖ * ‖y q‖) q) ∧
      Near u (2 * q) s.im (psum (fun q => x q * y q) q).im (psum (fun q => ‖x q‖ * ‖y q‖) q)) hk ?_ ?_
  · have e := this.2
    rw [psum_all, psum_all] at e
    exact e
  · have e1 : psum (fun q => x q * y q) 1 = x 0 * y 0 := by
      have := psum_succ (fun q => x q * y q) (0 : Fin k)
      simpa [psum_zero] using this
    refine ⟨le_rfl, ?_⟩
    rw [e1, psum_one', Complex.mul_re, Complex.mul_im]
    exact ⟨near_le h (Near.pd h hpd (Near.exact (u := u) (x 0).re) (Near.exact (y 0).re) (Near.exact (x 0).im) (Near.exact (y 0).im)) (complex_cauchy _ _).1,
      near_le h (complex_near_ps h hps _ _ _ _) (complex_cauchy _ _).2⟩
  · rintro q s - ⟨h1, h2, h3⟩
    refine ⟨by omega, ?_⟩
    rw [psum_succ, psum_succ]
    obtain ⟨g1, g2⟩ := maddC_step h hps hpd hop (a := x q) (b := y q) (q := 2 * q.val) (by omega) h2 h3
    exact ⟨near_le h g1 (add_le_add le_rfl (complex_cauchy _ _).1), near_le h g2 (add_le_add le_rfl (complex_cauchy _ _).2)⟩

private theorem mulRRC_get' [NeZero k] (mul : ℂ → ℂ → ℂ) (op : ℂ → ℂ → ℂ → ℂ) (conv : Bool) (m0 : Mat c ℂ r n o .row (p1 && p2))
    (a : Mat c ℂ r k o .row p1) (b : Mat c ℂ k n o .row p2) (i : Fin r) (j : Fin n) :
    (Fl.mulRRC mul op conv m0 a b).get i j = accumC mul op (a.get i) (fun q => b.get q j) := by
  unfold Fl.mulRRC
  apply Mat.get_outerRows (fun i j => accumC mul op (a.get i) (fun q => b.get q j))
  intro i m i' j'
  have := forUp_rel (n := k) (lo := 1)
    (body := fun run (m : Mat c ℂ r n o .row (p1 && p2)) => m.setRow i (Vec.asPacked _ (Fl.multiplyAddC op conv
      (Vec.fill (a.get i run) : Vec c ℂ n (p1 && p2)) (b.stripes run) (m.stripes i))))
    (body' := fun q s => op (a.get i q) (b.get q j') s)
    (s := m.setRow i (Vec.asPacked _ (Vec.scalarOp conv mul (a.get i 0) (b.stripes 0)))) (t := mul (a.get i 0) (b.get 0 j'))
    (fun m' t => (∀ i', i' ≠ i → m'.get i' j' = m.get i' j') ∧ m'.get i j' = t)
    ⟨fun i' hi' => by rw [Mat.get_setRow, if_neg hi'], by
      rw [Mat.get_setRow, if_pos rfl]
      simp [Vec.scalarOp, Mat.get]⟩
    (by
      rintro q m' t ⟨h1, h2⟩
      refine ⟨fun i' hi' => by rw [Mat.get_setRow, if_neg hi', h1 i' hi'], ?_⟩
      rw [Mat.get_setRow, if_pos rfl, ← h2]
      simp [Fl.multiplyAddC, Mat.get])
  by_cases hi : i' = i
  · rw [if_pos hi, hi]; exact this.2
  · rw [if_neg hi]; exact this.1 i' hi

private theorem mulCC_get' [NeZero k] (mul : ℂ → ℂ → ℂ) (op : ℂ → ℂ → ℂ → ℂ) (conv : Bool) (m0 : Mat c ℂ r n o .col (p1 && p2))
    (a : Mat c ℂ r k o .col p1) (b : Mat c ℂ k n o L p2) (i : Fin r) (j : Fin n) :
    (Fl.mulCC mul op conv m0 a b).get i j = accumC mul op (a.get i) (fun q => b.get q j) := by
  unfold Fl.mulCC
  apply Mat.get_outerCols (fun i j => accumC mul op (a.get i) (fun q => b.get q j))
  intro j m i' j'
  have := forUp_rel (n := k) (lo := 1)
    (body := fun run (m : Mat c ℂ r n o .col (p1 && p2)) => m.setCol j (Vec.asPacked _ (Fl.multiplyAddC op conv (a.stripes run)
      (Vec.fill (b.get run j) : Vec c ℂ r (p1 && p2)) (m.stripes j))))
    (body' := fun q s => op (a.get i' q) (b.get q j) s)
    (s := m.setCol j (Vec.asPacked _ (Vec.opScalar conv mul (a.stripes 0) (b.get 0 j)))) (t := mul (a.get i' 0) (b.get 0 j))
    (fun m' t => (∀ j', j' ≠ j → m'.get i' j' = m.get i' j') ∧ m'.get i' j = t)
    ⟨fun j' hj' => by rw [Mat.get_setCol, if_neg hj'], by
      rw [Mat.get_setCol, if_pos rfl]
      simp [Vec.opScalar, Mat.get]⟩
    (by
      rintro q m' t ⟨h1, h2⟩
      refine ⟨fun j' hj' => by rw [Mat.get_setCol, if_neg hj', h1 j' hj'], ?_⟩
      rw [Mat.get_setCol, if_pos rfl, ← h2]
      simp [Fl.multiplyAddC, Mat.get])
  by_cases hj : j' = j
  · rw [if_pos hj, hj]; exact this.2
  · rw [if_neg hj]; exact this.1 j' hj

private theorem vecMulRC_get' [NeZero k] (mul : ℂ → ℂ → ℂ) (op : ℂ → ℂ → ℂ → ℂ) (conv : Bool) (v : Vec c ℂ k p1) (m : Mat c ℂ k n .follow .row p2) (j : Fin n) :
    (Fl.vecMulRC mul op conv v m).get j = accumC mul op v.get (fun q => m.get q j) := by
  unfold Fl.vecMulRC accumC
  exact forUp_rel (n := k) (lo := 1)
    (body := fun run (w : Vec c ℂ n (p2 && p2)) => Vec.asPacked _ (Fl.multiplyAddC op conv (Vec.fill (v.get run) : Vec c ℂ n (p2 && p2)) (m.stripes run) w))
    (body' := fun q s => op (v.get q) (m.get q j) s) (fun w t => w.get j = t) (by simp [Vec.scalarOp, Mat.get])
    (by rintro q w t rfl; simp [Fl.multiplyAddC, Mat.get])

/-- `Sum(a * b)` of complex vectors, without conjugation. -/
private theorem sumC_err [NeZero k] (h : Rounding fl u) {ps pd : ℝ → ℝ → ℝ → ℝ → ℝ} (hps : Fl.IsProdSum fl ps) (hpd : Fl.IsProdDiff fl pd) (conv : Bool)
    (tb : RTree (batchSize k false)) (ts : RTree (k + 1)) (htb : tb.Valid) (hts : ts.Valid) (a : Vec c ℂ k p1) (b : Vec c ℂ k p2) :
    |(Fl.sumC fl tb ts (Vec.doBinary conv (Fl.prodC ps pd) a b : Vec c ℂ k (p1 && p2)) - ∑ q, a.get q * b.get q).re|
      ≤ ((1 + u) ^ (2 * k) - 1) * ∑ q, ‖a.get q‖ * ‖b.get q‖ ∧
    |(Fl.sumC fl tb ts (Vec.doBinary conv (Fl.prodC ps pd) a b : Vec c ℂ k (p1 && p2)) - ∑ q, a.get q * b.get q).im|
      ≤ ((1 + u) ^ (2 * k) - 1) * ∑ q, ‖a.get q‖ * ‖b.get q‖ := by
  have hk : 1 ≤ k := Nat.one_le_iff_ne_zero.2 (NeZero.ne k)
  have hK : (0 : ℝ) ≤ (1 + u) ^ (k + 1) - 1 := by linarith [h.one_le (k + 1)]
  have hS : 0 ≤ ∑ q, ‖a.get q‖ * ‖b.get q‖ := Finset.sum_nonneg fun q _ => by positivity
  have hmono : ((1 + u) ^ (k + 1) - 1) * ∑ q, ‖a.get q‖ * ‖b.get q‖ ≤ ((1 + u) ^ (2 * k) - 1) * ∑ q, ‖a.get q‖ * ‖b.get q‖ := by
    have : (1 + u) ^ (k + 1) ≤ (1 + u) ^ (2 * k) := pow_le_pow_right₀ (by linarith [h.u_nonneg]) (by omega)
    exact mul_le_mul_of_nonneg_right (by linarith) hS
  rw [Complex.sub_re, Complex.sub_im, Complex.re_sum, Complex.im_sum, complex_sumC_re, complex_sumC_im]
  constructor
  · refine ((complex_sum_terms h tb ts htb hts _ (x := fun i => (a.get i * b.get i).re)
      (M := fun i => |(a.get i).re| * |(b.get i).re| + |(a.get i).im| * |(b.get i).im|) (fun i => ?_) (fun i => ?_)).trans
      (mul_le_mul_of_nonneg_left (Finset.sum_le_sum fun i _ => (complex_cauchy _ _).1) hK)).trans hmono
    · simp only [Vec.get_doUnary, Vec.get_doBinary, Fl.prodC, Complex.mul_re]
      exact Near.pd h hpd (Near.exact (u := u) (a.get i).re) (Near.exact (b.get i).re) (Near.exact (a.get i).im) (Near.exact (b.get i).im)
    · simp only [Vec.get_doUnary, Vec.get_doBinary, Fl.prodC]
      rcases hpd (a.get i).re (b.get i).re (a.get i).im (b.get i).im with e | e | e <;> rw [e, h.idem]
  · refine ((complex_sum_terms h tb ts htb hts _ (x := fun i => (a.get i * b.get i).im)
      (M := fun i => |(a.get i).re| * |(b.get i).im| + |(a.get i).im| * |(b.get i).re|) (fun i => ?_) (fun i => ?_)).trans
      (mul_le_mul_of_nonneg_left (Finset.sum_le_sum fun i _ => (complex_cauchy _ _).2) hK)).trans hmono
    · simp only [Vec.get_doUnary, Vec.get_doBinary, Fl.prodC, Complex.mul_im]
      exact complex_near_ps h hps _ _ _ _
    · simp only [Vec.get_doUnary, Vec.get_doBinary, Fl.prodC]
      rcases hps (a.get i).re (b.get i).im (a.get i).im (b.get i).re with e | e | e <;> rw [e, h.idem]

private theorem of_accum [NeZero k] (h : Rounding fl u) {ps pd : ℝ → ℝ → ℝ → ℝ → ℝ} (hps : Fl.IsProdSum fl ps) (hpd : Fl.IsProdDiff fl pd)
    {op : ℂ → ℂ → ℂ → ℂ} (hop : Fl.IsMulAddC fl ps pd op) (x y : Fin k → ℂ) :
    |(accumC (Fl.prodC ps pd) op x y - ∑ q, x q * y q).re| ≤ ((1 + u) ^ (2 * k) - 1) * ∑ q, ‖x q‖ * ‖y q‖ ∧
    |(accumC (Fl.prodC ps pd) op x y - ∑ q, x q * y q).im| ≤ ((1 + u) ^ (2 * k) - 1) * ∑ q, ‖x q‖ * ‖y q‖ := by
  obtain ⟨h1, h2⟩ := accumC_err h hps hpd hop x y
  exact ⟨h1.err, h2.err⟩

/-- The same for the norm of the error. -/
theorem complex_norm_accum [NeZero k] (h : Rounding fl u) {ps pd : ℝ → ℝ → ℝ → ℝ → ℝ} (hps : Fl.IsProdSum fl ps) (hpd : Fl.IsProdDiff fl pd)
    {op : ℂ → ℂ → ℂ → ℂ} (hop : Fl.IsMulAddC fl ps pd op) (x y : Fin k → ℂ) :
    ‖forUp k 1 (fun q s => op (x q) (y q) s) (Fl.prodC ps pd (x 0) (y 0)) - ∑ q, x q * y q‖ ≤ 283 / 200 * (((1 + u) ^ (2 * k) - 1) * ∑ q, ‖x q‖ * ‖y q‖) := by
  obtain ⟨h1, h2⟩ := of_accum h hps hpd hop x y
  change ‖accumC (Fl.prodC ps pd) op x y - ∑ q, x q * y q‖ ≤ _
  set w := accumC (Fl.prodC ps pd) op x y - ∑ q, x q * y q
  set b := ((1 + u) ^ (2 * k) - 1) * ∑ q, ‖x q‖ * ‖y q‖
  have hb : 0 ≤ b := (abs_nonneg _).trans h1
  rw [← abs_norm, ← abs_of_nonneg (by positivity : 0 ≤ 283 / 200 * b), ← sq_le_sq, ← Complex.normSq_eq_norm_sq, Complex.normSq_apply]
  have a1 := mul_self_le_mul_self (abs_nonneg _) h1
  have a2 := mul_self_le_mul_self (abs_nonneg _) h2
  rw [abs_mul_abs_self] at a1 a2
  nlinarith [mul_self_nonneg b]

/-- C144: the product of two complex matrices, for every pair of layouts, packing, vectorisation and reduction order, whether or not products and sums are fused,
and whichever of the two formulas of `madd` is used. -/
theorem C144_mul [NeZero k] (h : Rounding fl u) {ps pd : ℝ → ℝ → ℝ → ℝ → ℝ} (hps : Fl.IsProdSum fl ps) (hpd : Fl.IsProdDiff fl pd) {op : ℂ → ℂ → ℂ → ℂ}
    (hop : Fl.IsMulAddC fl ps pd op) (conv : Bool) (tb : RTree (batchSize k false)) (ts : RTree (k + 1)) (htb : tb.Valid) (hts : ts.Valid)
    (m0 : Mat c ℂ r n o L (p1 && p2)) (a : Mat c ℂ r k o L p1) (b : Mat c ℂ k n o L' p2) (i : Fin r) (j : Fin n) :
    |((Fl.matMulC fl (Fl.prodC ps pd) op conv tb ts m0 a b).get i j - ∑ q, a.get i q * b.get q j).re|
      ≤ ((1 + u) ^ (2 * k) - 1) * ∑ q, ‖a.get i q‖ * ‖b.get q j‖ ∧
    |((Fl.matMulC fl (Fl.prodC ps pd) op conv tb ts m0 a b).get i j - ∑ q, a.get i q * b.get q j).im|
      ≤ ((1 + u) ^ (2 * k) - 1) * ∑ q, ‖a.get i q‖ * ‖b.get q j‖ := by
  cases L
  · cases L'
    · simp only [Fl.matMulC]; rw [mulRRC_get']; exact of_accum h hps hpd hop _ _
    · simp only [Fl.matMulC, Fl.mulRCC, Mat.get_fillLoop]
      exact sumC_err h hps hpd conv tb ts htb hts (a.stripes i) (b.stripes j)
  · simp only [Fl.matMulC]; rw [mulCC_get']; exact of_accum h hps hpd hop _ _

/-- C144: complex vector × matrix. -/
theorem C144_vec_mul [NeZero k] (h : Rounding fl u) {ps pd : ℝ → ℝ → ℝ → ℝ → ℝ} (hps : Fl.IsProdSum fl ps) (hpd : Fl.IsProdDiff fl pd) {op : ℂ → ℂ → ℂ → ℂ}
    (hop : Fl.IsMulAddC fl ps pd op) (conv : Bool) (tb : RTree (batchSize k false)) (ts : RTree (k + 1)) (htb : tb.Valid) (hts : ts.Valid)
    (v0 : Vec c ℂ n (p1 && p2)) (v : Vec c ℂ k p1) (m : Mat c ℂ k n .follow L p2) (j : Fin n) :
    |(Fl.vecMulCx fl (Fl.prodC ps pd) op conv tb ts v0 v m j - ∑ q, v.get q * m.get q j).re|
      ≤ ((1 + u) ^ (2 * k) - 1) * ∑ q, ‖v.get q‖ * ‖m.get q j‖ ∧
    |(Fl.vecMulCx fl (Fl.prodC ps pd) op conv tb ts v0 v m j - ∑ q, v.get q * m.get q j).im|
      ≤ ((1 + u) ^ (2 * k) - 1) * ∑ q, ‖v.get q‖ * ‖m.get q j‖ := by
  cases L
  · simp only [Fl.vecMulCx]; rw [vecMulRC_get']; exact of_accum h hps hpd hop _ _
  · simp only [Fl.vecMulCx, Fl.vecMulCC, Vec.get_setLoop]
    exact sumC_err h hps hpd conv tb ts htb hts v (m.stripes j)

/-- C144: complex matrix × vector. -/
theorem C144_mul_vec [NeZero k] (h : Rounding fl u) {ps pd : ℝ → ℝ → ℝ → ℝ → ℝ} (hps : Fl.IsProdSum fl ps) (hpd : Fl.IsProdDiff fl pd) {op : ℂ → ℂ → ℂ → ℂ}
    (hop : Fl.IsMulAddC fl ps pd op) (conv : Bool) (tb : RTree (batchSize k false)) (ts : RTree (k + 1)) (htb : tb.Valid) (hts : ts.Valid)
    (v0 : Vec c ℂ n (p2 && p1)) (f0 : Mat c ℂ k n .follow L.flip p1) (m : Mat c ℂ n k .precede L p1) (v : Vec c ℂ k p2) (i : Fin n) :
    |(Fl.mulVecCx fl (Fl.prodC ps pd) op conv tb ts v0 f0 m v i - ∑ q, m.get i q * v.get q).re|
      ≤ ((1 + u) ^ (2 * k) - 1) * ∑ q, ‖m.get i q‖ * ‖v.get q‖ ∧
    |(Fl.mulVecCx fl (Fl.prodC ps pd) op conv tb ts v0 f0 m v i - ∑ q, m.get i q * v.get q).im|
      ≤ ((1 + u) ^ (2 * k) - 1) * ∑ q, ‖m.get i q‖ * ‖v.get q‖ := by
  have := C144_vec_mul h hps hpd hop conv tb ts htb hts v0 v (Mat.flipLayoutAndOrder (o := .precede) f0 m) i
  have e : ∀ q, (Mat.flipLayoutAndOrder (o := .precede) f0 m).get q i = m.get i q := fun q =>
    congrFun (congrFun (C21_convert_order (o := .precede) f0 m) q) i
  simp only [e, mul_comm (v.get _), mul_comm ‖v.get _‖] at this
  exact this

/-- C144: only the moduli count. A part of the product can be lost altogether: for every precision there are floats whose product has the real part 1, computed as 0
if products and differences are not fused. -/
theorem C144_parts_can_vanish {p : ℕ} (hp : 3 ≤ p) (hfl : RoundsToNearest p fl) (op : ℂ → ℂ → ℂ → ℂ) (conv : Bool) (tb : RTree (batchSize 1 false)) (ts : RTree 2)
    (m0 : Mat c ℂ 1 1 o .col (p1 && p2)) :
    ∃ x y : ℂ, (IsFloat p x.re ∧ IsFloat p x.im ∧ IsFloat p y.re ∧ IsFloat p y.im) ∧ (x * y).re = 1 ∧
      ∀ (a : Mat c ℂ 1 1 o .col p1) (b : Mat c ℂ 1 1 o L' p2), a.get 0 0 = x → b.get 0 0 = y →
        ((Fl.matMulC fl (Fl.prodC (fun a b c d => fl (fl (a * b) + fl (c * d))) (fun a b c d => fl (fl (a * b) - fl (c * d)))) op conv tb ts m0 a b).get 0 0).re = 0 := by
  obtain ⟨t, rfl⟩ : ∃ t, p = t + 3 := ⟨p - 3, by omega⟩
  set P : ℝ := 2 ^ (t + 2) with hP
  have hP4 : (4 : ℝ) ≤ P := by
    have : (1 : ℝ) ≤ 2 ^ t := one_le_pow₀ (by norm_num)
    rw [hP, pow_add]; linarith
  have hz : (2 : ℝ) ^ (((t + 2 : ℕ) : ℤ)) = P := by rw [zpow_natCast]
  have two : (2 : ℤ) ^ (t + 3) = 2 * 2 ^ (t + 2) := by rw [pow_succ]; ring
  have four : (4 : ℤ) ≤ 2 ^ (t + 2) := by
    have : (1 : ℤ) ≤ 2 ^ t := one_le_pow₀ (by norm_num)
    rw [pow_add]; linarith
  have fP : ∀ j : ℤ, 0 ≤ j → j < 4 → IsFloat (t + 3) (P + j) := fun j h0 h4 =>
    ⟨2 ^ (t + 2) + j, 0, by rw [hP]; push_cast; ring, by rw [abs_of_nonneg (by linarith), two]; linarith⟩
  have r1 : fl ((P + 1) * (P + 1)) = (P + 2) * P := by
    have := Fl.round_to_grid (by omega) hfl (((t + 2 : ℕ) : ℤ)) (2 ^ (t + 2) + 2) (x := (P + 1) * (P + 1))
      (by rw [abs_of_nonneg (by linarith), two]; linarith)
      (by
        rw [show (((t + 3 : ℕ) : ℤ) - 1 + ((t + 2 : ℕ) : ℤ)) = ((t + 2 : ℕ) : ℤ) + ((t + 2 : ℕ) : ℤ) by push_cast; ring, zpow_add₀ (by norm_num), hz,
          abs_of_nonneg (by positivity)]
        nlinarith)
      (by
        rw [hz]
        push_cast
        rw [show ((2 : ℝ) ^ (t + 2) + 2) * P - (P + 1) * (P + 1) = -1 by rw [← hP]; ring, abs_neg, abs_one]
        linarith)
    rw [this, hz]
    push_cast
    rw [← hP]
  have r2 : fl ((P + 2) * P) = (P + 2) * P := by
    apply hfl.fixed
    refine ⟨2 ^ (t + 2) + 2, ((t + 2 : ℕ) : ℤ), by rw [hz]; push_cast; rw [← hP], ?_⟩
    rw [abs_of_nonneg (by linarith), two]; linarith
  refine ⟨⟨P + 1, P + 2⟩, ⟨P + 1, P⟩, ⟨by simpa using fP 1 (by norm_num) (by norm_num), by simpa using fP 2 (by norm_num) (by norm_num),
    by simpa using fP 1 (by norm_num) (by norm_num), by simpa using fP 0 (by norm_num) (by norm_num)⟩, by rw [Complex.mul_re]; ring, fun a b ha hb => ?_⟩
  simp only [Fl.matMulC]
  rw [mulCC_get']
  have e : ∀ (mul : ℂ → ℂ → ℂ) (x y : Fin 1 → ℂ), accumC mul op x y = mul (x 0) (y 0) := fun mul x y => by
    unfold accumC
    rw [forUp]
    rfl
  rw [e, ha, hb]
  simp only [Fl.prodC]
  rw [r1, r2, sub_self]
  exact hfl.fixed ⟨0, 0, by simp, by positivity⟩

/-- Non-vacuity: with single precision both formulas of `madd` are allowed, fused or not. -/
example : Rounding (flAway 24) ((2 : ℝ) ^ (-((24 : ℕ) : ℤ))) ∧
    Fl.IsProdSum (flAway 24) (fun a b c d => flAway 24 (a * b + flAway 24 (c * d))) ∧
    Fl.IsProdDiff (flAway 24) (fun a b c d => flAway 24 (flAway 24 (a * b) - flAway 24 (c * d))) ∧
    Fl.IsMulAddC (flAway 24) (fun a b c d => flAway 24 (a * b + flAway 24 (c * d))) (fun a b c d => flAway 24 (flAway 24 (a * b) - flAway 24 (c * d)))
      (fun a b d => ⟨flAway 24 (a.re * b.re - flAway 24 (a.im * b.im - d.re)), flAway 24 (a.re * b.im + flAway 24 (a.im * b.re + d.im))⟩) ∧
    Fl.IsMulAddC (flAway 24) (fun a b c d => flAway 24 (a * b + flAway 24 (c * d))) (fun a b c d => flAway 24 (flAway 24 (a * b) - flAway 24 (c * d)))
      (fun a b d => ⟨flAway 24 (flAway 24 (flAway 24 (a.re * b.re) - flAway 24 (a.im * b.im)) + d.re),
        flAway 24 (flAway 24 (a.re * b.im + flAway 24 (a.im * b.re)) + d.im)⟩) :=
  ⟨(flAway_roundsToNearest (by norm_num)).rounding (by norm_num), fun _ _ _ _ => Or.inr (Or.inl rfl), fun _ _ _ _ => Or.inl rfl,
    fun _ _ _ => ⟨Or.inr ⟨_, Or.inl rfl, Or.inl rfl⟩, Or.inr ⟨_, Or.inl rfl, Or.inl rfl⟩⟩, fun _ _ _ => ⟨Or.inl rfl, Or.inl rfl⟩⟩

end Mathter.Props
