import Verif.Lemmas.IeeeLinear
import Verif.Props.Ieee
import Verif.Props.Matrix
import Verif.Props.LinearSolve
import Mathlib.Tactic.NormNum

/-!
# NaN in matrix algebra (C117) and in determinants of large matrices (C118)

Claims about real floating-point element types with all their values, whatever the rounding `fl` and whether or not operations are fused.
-/

namespace Mathter.Props
open Mathter
variable {c : Cfg} {r k n m : ℕ} {o : Order} {L L' : Layout} {p1 p2 : Bool} {fl : ℝ → Fx} {op : Fx → Fx → Fx → Fx}
  {pd : Fx → Fx → Fx → Fx → Fx} {madd msub : Fx → Fx → Fx → Fx}

/-! ## C117: products -/

private theorem accum_nan [NeZero k] (hop : Fx.IsMulAdd fl op) (x y : Fin k → Fx) (q : Fin k) (h : x q = .nan ∨ y q = .nan) :
    forUp k 1 (fun q s => op (x q) (y q) s) (Fx.mul fl (x 0) (y 0)) = .nan := by
  have hk : 1 ≤ k := Nat.one_le_iff_ne_zero.2 (NeZero.ne k)
  refine forUp_inv (n := k) (lo := 1) (body := fun q s => op (x q) (y q) s) (s := Fx.mul fl (x 0) (y 0)) (fun t s => q.val < t → s = .nan) hk ?_ ?_ q.isLt
  · intro hq
    have e : q = 0 := Fin.ext (by rw [show ((0 : Fin k) : ℕ) = 0 from Nat.zero_mod _]; omega)
    subst e
    rcases h with h | h <;> rw [h]
    · exact Fx.nan_mul' _
    · exact Fx.mul_nan' _
  · intro t s _ hs hq
    by_cases e : q = t
    · subst e
      rcases h with h | h <;> rw [h]
      · exact hop.nan1 _ _
      · exact hop.nan2 _ _
    · have : q.val ≠ t.val := fun h' => e (Fin.ext h')
      rw [hs (by omega), hop.nan3]

theorem ieMulRR_get [NeZero k] (fl : ℝ → Fx) (op : Fx → Fx → Fx → Fx) (conv : Bool) (m0 : Mat c Fx r n o .row (p1 && p2))
    (a : Mat c Fx r k o .row p1) (b : Mat c Fx k n o .row p2) (i : Fin r) (j : Fin n) :
    (Ie.mulRR fl op conv m0 a b).get i j = forUp k 1 (fun q s => op (a.get i q) (b.get q j) s) (Fx.mul fl (a.get i 0) (b.get 0 j)) := by
  unfold Ie.mulRR
  apply Mat.get_outerRows (fun i j => forUp k 1 (fun q s => op (a.get i q) (b.get q j) s) (Fx.mul fl (a.get i 0) (b.get 0 j)))
  intro i m i' j'
  have := forUp_rel (n := k) (lo := 1)
    (body := fun run (m : Mat c Fx r n o .row (p1 && p2)) => m.setRow i (Vec.asPacked _ (Ie.multiplyAdd op conv
      (Vec.fill (a.get i run) : Vec c Fx n (p1 && p2)) (b.stripes run) (m.stripes i))))
    (body' := fun q s => op (a.get i q) (b.get q j') s)
    (s := m.setRow i (Vec.asPacked _ (Vec.scalarOp conv (Fx.mul fl) (a.get i 0) (b.stripes 0)))) (t := Fx.mul fl (a.get i 0) (b.get 0 j'))
    (fun m' t => (∀ i', i' ≠ i → m'.get i' j' = m.get i' j') ∧ m'.get i j' = t)
    ⟨fun i' hi' => by rw [Mat.get_setRow, if_neg hi'], by
      rw [Mat.get_setRow, if_pos rfl]
      simp [Vec.scalarOp, Mat.get]⟩
    (by
      rintro q m' t ⟨h1, h2⟩
      refine ⟨fun i' hi' => by rw [Mat.get_setRow, if_neg hi', h1 i' hi'], ?_⟩
      rw [Mat.get_setRow, if_pos rfl, ← h2]
      simp [Ie.multiplyAdd, Mat.get])
  by_cases hi : i' = i
  · rw [if_pos hi, hi]; exact this.2
  · rw [if_neg hi]; exact this.1 i' hi

theorem ieMulC_get [NeZero k] (fl : ℝ → Fx) (op : Fx → Fx → Fx → Fx) (conv : Bool) (m0 : Mat c Fx r n o .col (p1 && p2))
    (a : Mat c Fx r k o .col p1) (b : Mat c Fx k n o L p2) (i : Fin r) (j : Fin n) :
    (Ie.mulC fl op conv m0 a b).get i j = forUp k 1 (fun q s => op (a.get i q) (b.get q j) s) (Fx.mul fl (a.get i 0) (b.get 0 j)) := by
  unfold Ie.mulC
  apply Mat.get_outerCols (fun i j => forUp k 1 (fun q s => op (a.get i q) (b.get q j) s) (Fx.mul fl (a.get i 0) (b.get 0 j)))
  intro j m i' j'
  have := forUp_rel (n := k) (lo := 1)
    (body := fun run (m : Mat c Fx r n o .col (p1 && p2)) => m.setCol j (Vec.asPacked _ (Ie.multiplyAdd op conv (a.stripes run)
      (Vec.fill (b.get run j) : Vec c Fx r (p1 && p2)) (m.stripes j))))
    (body' := fun q s => op (a.get i' q) (b.get q j) s)
    (s := m.setCol j (Vec.asPacked _ (Vec.opScalar conv (Fx.mul fl) (a.stripes 0) (b.get 0 j)))) (t := Fx.mul fl (a.get i' 0) (b.get 0 j))
    (fun m' t => (∀ j', j' ≠ j → m'.get i' j' = m.get i' j') ∧ m'.get i' j = t)
    ⟨fun j' hj' => by rw [Mat.get_setCol, if_neg hj'], by
      rw [Mat.get_setCol, if_pos rfl]
      simp [Vec.opScalar, Mat.get]⟩
    (by
      rintro q m' t ⟨h1, h2⟩
      refine ⟨fun j' hj' => by rw [Mat.get_setCol, if_neg hj', h1 j' hj'], ?_⟩
      rw [Mat.get_setCol, if_pos rfl, ← h2]
      simp [Ie.multiplyAdd, Mat.get])
  by_cases hj : j' = j
  · rw [if_pos hj, hj]; exact this.2
  · rw [if_neg hj]; exact this.1 j' hj

theorem ieVecMulR_get [NeZero k] (fl : ℝ → Fx) (op : Fx → Fx → Fx → Fx) (conv : Bool) (v : Vec c Fx k p1) (m : Mat c Fx k n .follow .row p2) (j : Fin n) :
    (Ie.vecMulR fl op conv v m).get j = forUp k 1 (fun q s => op (v.get q) (m.get q j) s) (Fx.mul fl (v.get 0) (m.get 0 j)) := by
  unfold Ie.vecMulR
  exact forUp_rel (n := k) (lo := 1)
    (body := fun run (w : Vec c Fx n (p2 && p2)) => Vec.asPacked _ (Ie.multiplyAdd op conv (Vec.fill (v.get run) : Vec c Fx n (p2 && p2)) (m.stripes run) w))
    (body' := fun q s => op (v.get q) (m.get q j) s) (fun w t => w.get j = t) (by simp [Vec.scalarOp, Mat.get])
    (by rintro q w t rfl; simp [Ie.multiplyAdd, Mat.get])

/-- C117: an element of a product is NaN if one of the elements it is made of is: a NaN in row `i` on the left makes the whole row `i` NaN, a NaN in
column `j` on the right the whole column `j`. For every pair of layouts, packing, vectorisation and reduction order. -/
theorem C117_mul [NeZero k] (hop : Fx.IsMulAdd fl op) (conv : Bool) (tb : RTree (batchSize k false)) (ts : RTree (k + 1)) (htb : tb.Valid) (hts : ts.Valid)
    (m0 : Mat c Fx r n o L (p1 && p2)) (a : Mat c Fx r k o L p1) (b : Mat c Fx k n o L' p2) (i : Fin r) (j : Fin n)
    (h : ∃ q, a.get i q = .nan ∨ b.get q j = .nan) : (Ie.matMul fl op conv tb ts m0 a b).get i j = .nan := by
  obtain ⟨q, h⟩ := h
  cases L
  · cases L'
    · simp only [Ie.matMul]; rw [ieMulRR_get]; exact accum_nan hop _ _ q h
    · simp only [Ie.matMul, Ie.mulRC, Mat.get_fillLoop]
      exact C92_dot conv tb ts htb hts (a.stripes i) (b.stripes j) ⟨q, h⟩
  · simp only [Ie.matMul]; rw [ieMulC_get]; exact accum_nan hop _ _ q h

/-- C117: so it is for vector × matrix. -/
theorem C117_vec_mul [NeZero k] (hop : Fx.IsMulAdd fl op) (conv : Bool) (tb : RTree (batchSize k false)) (ts : RTree (k + 1)) (htb : tb.Valid) (hts : ts.Valid)
    (v0 : Vec c Fx n (p1 && p2)) (v : Vec c Fx k p1) (m : Mat c Fx k n .follow L p2) (j : Fin n) (h : ∃ q, v.get q = .nan ∨ m.get q j = .nan) :
    Ie.vecMul fl op conv tb ts v0 v m j = .nan := by
  obtain ⟨q, h⟩ := h
  cases L
  · simp only [Ie.vecMul]; rw [ieVecMulR_get]; exact accum_nan hop _ _ q h
  · simp only [Ie.vecMul, Ie.vecMulC, Vec.get_setLoop]
    exact C92_dot conv tb ts htb hts v (m.stripes j) ⟨q, h⟩

/-- C117: and for matrix × vector. -/
theorem C117_mul_vec [NeZero k] (hop : Fx.IsMulAdd fl op) (conv : Bool) (tb : RTree (batchSize k false)) (ts : RTree (k + 1)) (htb : tb.Valid) (hts : ts.Valid)
    (v0 : Vec c Fx n (p2 && p1)) (f0 : Mat c Fx k n .follow L.flip p1) (m : Mat c Fx n k .precede L p1) (v : Vec c Fx k p2) (i : Fin n)
    (h : ∃ q, m.get i q = .nan ∨ v.get q = .nan) : Ie.mulVec fl op conv tb ts v0 f0 m v i = .nan := by
  obtain ⟨q, h⟩ := h
  refine C117_vec_mul hop conv tb ts htb hts v0 v _ i ⟨q, ?_⟩
  have e : (Mat.flipLayoutAndOrder (o := .precede) f0 m).get q i = m.get i q := congrFun (congrFun (C21_convert_order (o := .precede) f0 m) q) i
  rw [e]
  exact h.symm

/-! ## C117: triangular systems -/

/-- C117: a NaN in the matrix of an upper triangular system, at `(i, k)`, makes row `min i k` of the solution NaN, ... -/
theorem C117_solve_upper (hop : Fx.IsMulSub fl op) (A : Matrix (Fin n) (Fin n) Fx) (b : Matrix (Fin n) (Fin m) Fx) (i k : Fin n) (h : A i k = .nan) (j : Fin m) :
    Ie.solveUpper fl op A b (min i k) j = .nan ∧ ∀ b' : Matrix (Fin m) (Fin n) Fx, Ie.solveUpperFollow fl op A b' j (max i k) = .nan := by
  refine ⟨Ie.solveUpper_mat hop A b h j, fun b' => ?_⟩
  have := Ie.solveLower_mat hop A.transpose b'.transpose (i := k) (k := i) h j
  rwa [max_comm] at this

/-- C117: ... of a lower triangular system, row `max i k`. -/
theorem C117_solve_lower (hop : Fx.IsMulSub fl op) (A : Matrix (Fin n) (Fin n) Fx) (b : Matrix (Fin n) (Fin m) Fx) (i k : Fin n) (h : A i k = .nan) (j : Fin m) :
    Ie.solveLower fl op A b (max i k) j = .nan ∧ ∀ b' : Matrix (Fin m) (Fin n) Fx, Ie.solveLowerFollow fl op A b' j (min i k) = .nan := by
  refine ⟨Ie.solveLower_mat hop A b h j, fun b' => ?_⟩
  have := Ie.solveUpper_mat hop A.transpose b'.transpose (i := k) (k := i) h j
  rwa [min_comm] at this

/-- C117: a NaN on the right-hand side of a triangular system is in the solution at the same place. -/
theorem C117_solve_rhs (hop : Fx.IsMulSub fl op) (A : Matrix (Fin n) (Fin n) Fx) (b : Matrix (Fin n) (Fin m) Fx) (b' : Matrix (Fin m) (Fin n) Fx) (i : Fin n)
    (j : Fin m) : (b i j = .nan → Ie.solveUpper fl op A b i j = .nan ∧ Ie.solveLower fl op A b i j = .nan) ∧
      (b' j i = .nan → Ie.solveUpperFollow fl op A b' j i = .nan ∧ Ie.solveLowerFollow fl op A b' j i = .nan) :=
  ⟨fun h => ⟨Ie.solveUpper_rhs hop A b h, Ie.solveLower_rhs hop A b h⟩,
    fun h => ⟨Ie.solveLower_rhs hop A.transpose b'.transpose (i := i) (j := j) h, Ie.solveUpper_rhs hop A.transpose b'.transpose (i := i) (j := j) h⟩⟩

/-! ## C117: LU and LUP -/

/-- C117: solving with the LU decomposition of a matrix with a NaN: some unknown is NaN for every right-hand side. -/
theorem C117_lu (hop : Fx.IsMulSub fl op) (A : Matrix (Fin (n + 1)) (Fin (n + 1)) Fx) (h : ∃ i j, A i j = .nan) (b : Matrix (Fin (n + 1)) (Fin m) Fx)
    (b' : Matrix (Fin m) (Fin (n + 1)) Fx) :
    (∃ i, ∀ j, Ie.luSolve fl op (Ie.decomposeLU fl op A).L (Ie.decomposeLU fl op A).U b i j = .nan) ∧
      ∃ i, ∀ j, Ie.luSolveFollow fl op (Ie.decomposeLU fl op A).L (Ie.decomposeLU fl op A).U b' j i = .nan :=
  ⟨Ie.luSolve_nan hop (Ie.decomposeLU_nan hop h) b, Ie.luSolveFollow_nan hop (Ie.decomposeLU_nan hop h) b'⟩

/-- C117: so it is for LUP, although comparisons with NaN choose the pivots. -/
theorem C117_lup (hop : Fx.IsMulSub fl op) (A : Matrix (Fin (n + 1)) (Fin (n + 1)) Fx) (h : ∃ i j, A i j = .nan) (b0 b : Matrix (Fin (n + 1)) (Fin m) Fx)
    (b0' b' : Matrix (Fin m) (Fin (n + 1)) Fx) :
    (∃ i, ∀ j, Ie.lupSolve fl op (Ie.decomposeLUP fl op A) b0 b i j = .nan) ∧
      ∃ i, ∀ j, Ie.lupSolveFollow fl op (Ie.decomposeLUP fl op A) b0' b' j i = .nan := by
  obtain ⟨h1, h2⟩ := Ie.decomposeLUP_nan hop h
  refine ⟨Ie.luSolve_nan hop h1 _, ?_⟩
  obtain ⟨i, hi⟩ := Ie.luSolveFollow_nan hop h1 b'
  refine ⟨(Ie.decomposeLUP fl op A).P i, fun j => ?_⟩
  unfold Ie.lupSolveFollow
  rw [inversePermuteCols_apply _ h2]
  exact hi j

/-- C117: a NaN in a right-hand side is in the solution for that right-hand side, for any decomposition. -/
theorem C117_lu_rhs (hop : Fx.IsMulSub fl op) (A : Matrix (Fin (n + 1)) (Fin (n + 1)) Fx) (b0 b : Matrix (Fin (n + 1)) (Fin m) Fx)
    (b0' b' : Matrix (Fin m) (Fin (n + 1)) Fx) (j : Fin m) :
    ((∃ i, b i j = .nan) → (∃ i, Ie.luSolve fl op (Ie.decomposeLU fl op A).L (Ie.decomposeLU fl op A).U b i j = .nan) ∧
      ∃ i, Ie.lupSolve fl op (Ie.decomposeLUP fl op A) b0 b i j = .nan) ∧
    ((∃ i, b' j i = .nan) → (∃ i, Ie.luSolveFollow fl op (Ie.decomposeLU fl op A).L (Ie.decomposeLU fl op A).U b' j i = .nan) ∧
      ∃ i, Ie.lupSolveFollow fl op (Ie.decomposeLUP fl op A) b0' b' j i = .nan) := by
  have hP := Ie.decomposeLUP_perm fl op A
  have lu : ∀ (L U : Matrix (Fin (n + 1)) (Fin (n + 1)) Fx) (c : Matrix (Fin (n + 1)) (Fin m) Fx) i, c i j = .nan → Ie.luSolve fl op L U c i j = .nan :=
    fun L U c i h => ((C117_solve_rhs hop U (Ie.solveLower fl op L c) c.transpose i j).1 ((C117_solve_rhs hop L c c.transpose i j).1 h).2).1
  have luf : ∀ (L U : Matrix (Fin (n + 1)) (Fin (n + 1)) Fx) (c : Matrix (Fin m) (Fin (n + 1)) Fx) i, c j i = .nan → Ie.luSolveFollow fl op L U c j i = .nan :=
    fun L U c i h => ((C117_solve_rhs hop L c.transpose (Ie.solveUpperFollow fl op U c) i j).2 ((C117_solve_rhs hop U c.transpose c i j).2 h).1).2
  constructor
  · rintro ⟨i, h⟩
    refine ⟨⟨i, lu _ _ _ i h⟩, ?_⟩
    obtain ⟨i', rfl⟩ := hP.2 i
    refine ⟨i', lu _ _ _ i' ?_⟩
    rw [permuteRows_eq]
    exact h
  · rintro ⟨i, h⟩
    refine ⟨⟨i, luf _ _ _ i h⟩, (Ie.decomposeLUP fl op A).P i, ?_⟩
    unfold Ie.lupSolveFollow
    rw [inversePermuteCols_apply _ hP.1]
    exact luf _ _ _ i h

/-- C117: the inverse of a matrix with a NaN, for dimensions 1 and 5 and above, has a whole row of NaN (a whole column for `FOLLOW_VECTOR`). -/
theorem C117_inverse (hop : Fx.IsMulSub fl op) (b0 A : Matrix (Fin (n + 1)) (Fin (n + 1)) Fx) (h : ∃ i j, A i j = .nan) :
    (∃ i, ∀ j, Ie.inverseLUP fl op .precede b0 A i j = .nan) ∧ ∃ j, ∀ i, Ie.inverseLUP fl op .follow b0 A i j = .nan :=
  ⟨(C117_lup hop A h b0 Ie.one b0 Ie.one).1, (C117_lup hop A h b0 Ie.one b0 Ie.one).2⟩

/-- Non-vacuity: a NaN below a zero pivot, which the search for a pivot does not choose. -/
example : ∃ i, ∀ j : Fin 1, Ie.lupSolve .fin (fun d a b => Fx.sub .fin d (Fx.mul .fin a b))
    (Ie.decomposeLUP .fin (fun d a b => Fx.sub .fin d (Fx.mul .fin a b)) (Matrix.of ![![.fin 0, .fin 1], ![.nan, .fin 1]]))
    (Matrix.of fun _ _ => .fin 0) (Matrix.of fun _ _ => .fin 1) i j = .nan :=
  (C117_lup (fl := .fin) (fun _ _ _ => Or.inl rfl) _ ⟨1, 0, rfl⟩ _ _ (Matrix.of fun _ _ => .fin 0) (Matrix.of fun (_ : Fin 1) _ => .fin 1)).1

/-- Non-vacuity: a right-hand side with a NaN for a matrix whose rows are exchanged. -/
example : ∃ i, Ie.lupSolve .fin (fun d a b => Fx.sub .fin d (Fx.mul .fin a b))
    (Ie.decomposeLUP .fin (fun d a b => Fx.sub .fin d (Fx.mul .fin a b)) (Matrix.of ![![.fin 0, .fin 1], ![.fin 2, .fin 1]]))
    (Matrix.of fun _ _ => .fin 0) (Matrix.of ![![.fin 1], ![.nan]]) i (0 : Fin 1) = .nan :=
  ((C117_lu_rhs (fl := .fin) (fun _ _ _ => Or.inl rfl) _ _ _ (Matrix.of fun _ _ => .fin 0) (Matrix.of fun _ _ => .fin 1) 0).1 ⟨1, rfl⟩).2

/-! ## C117: determinants and inverses of dimensions 2, 3 and 4 -/

private theorem vsum_nan {p : Bool} (tb : RTree (batchSize n false)) (ts : RTree (n + 1)) (htb : tb.Valid) (hts : ts.Valid) (v : Fin n → Fx) (q : Fin n)
    (h : v q = .nan) : Ie.vsum c p fl tb ts v = .nan :=
  C92_sum tb ts htb hts _ ⟨q, by simpa using h⟩

/-- C117: the determinant of a 2×2 matrix with a NaN is NaN. -/
theorem C117_det2 (hpd : Fx.IsProdDiff fl pd) (m : Matrix (Fin 2) (Fin 2) Fx) (h : ∃ i j, m i j = .nan) : Ie.det2 pd m = .nan := by
  obtain ⟨i, j, h⟩ := h
  unfold Ie.det2
  fin_cases i <;> fin_cases j <;> simp only [Fin.zero_eta, Fin.mk_one] at h <;> rw [h]
  · exact hpd.nan1 _ _ _
  · exact hpd.nan4 _ _ _
  · exact hpd.nan3 _ _ _
  · exact hpd.nan2 _ _ _

set_option linter.unusedSimpArgs false in
set_option linter.unusedTactic false in
private theorem det3_nan {p : Bool} (hpd : Fx.IsProdDiff fl pd) (tb : RTree (batchSize 3 false)) (ts : RTree (3 + 1)) (htb : tb.Valid) (hts : ts.Valid)
    (s : Fin 3 → Fin 3 → Fx) (i j : Fin 3) (h : s i j = .nan) : Ie.det3Stripes c p fl pd tb ts s = .nan := by
  unfold Ie.det3Stripes
  fin_cases i <;> fin_cases j <;> simp only [Fin.zero_eta, Fin.mk_one, Fin.reduceFinMk] at h
  all_goals first
    | (refine vsum_nan tb ts htb hts _ 0 ?_; simp [Ie.stripeMul, Ie.vpd, sw, h, Fx.nan_mul', Fx.mul_nan', hpd.nan1, hpd.nan2, hpd.nan3, hpd.nan4]; done)
    | (refine vsum_nan tb ts htb hts _ 1 ?_; simp [Ie.stripeMul, Ie.vpd, sw, h, Fx.nan_mul', Fx.mul_nan', hpd.nan1, hpd.nan2, hpd.nan3, hpd.nan4]; done)
    | (refine vsum_nan tb ts htb hts _ 2 ?_; simp [Ie.stripeMul, Ie.vpd, sw, h, Fx.nan_mul', Fx.mul_nan', hpd.nan1, hpd.nan2, hpd.nan3, hpd.nan4]; done)

private theorem det4_nan {p : Bool} (hpd : Fx.IsProdDiff fl pd) (hadd : Fx.IsMulAdd fl madd) (tb3 : RTree (batchSize 3 false)) (ts3 : RTree (3 + 1))
    (tb4 : RTree (batchSize 4 false)) (ts4 : RTree (4 + 1)) (htb3 : tb3.Valid) (hts3 : ts3.Valid)
    (s : Fin 4 → Fin 4 → Fx) (i j : Fin 4) (h : s i j = .nan) (htb4 : tb4.Valid) (hts4 : ts4.Valid) :
    Ie.det4Stripes c p fl pd madd tb3 ts3 tb4 ts4 s = .nan := by
  have key : s 0 2 = .nan ∨ s 0 3 = .nan ∨
      (∃ q, Ie.stripeMul fl (![.fin 1, .fin (-1), .fin (-1), .fin 1]) (Ie.stripeMul fl (Ie.stripeMul fl (Ie.stripeMul fl (sw (s 0) ![1, 1, 0, 0])
        (sw (s 1) ![3, 2, 3, 2])) (sw (s 2) ![2, 3, 2, 3])) (sw (s 3) ![0, 0, 1, 1])) q = .nan) ∨
      (∃ q, Ie.stripeMul fl (sw (s 1) ![2, 1, 0]) (Ie.vpd pd (sw (s 2) ![1, 0, 2]) (sw (s 3) ![0, 2, 1]) (sw (s 2) ![0, 2, 1]) (sw (s 3) ![1, 0, 2])) q = .nan) ∨
      (∃ q, Ie.stripeMul fl (sw (s 1) ![3, 1, 0]) (Ie.vpd pd (sw (s 2) ![0, 3, 1]) (sw (s 3) ![1, 0, 3]) (sw (s 2) ![1, 0, 3]) (sw (s 3) ![0, 3, 1])) q = .nan) := by
    have e1 : ∀ j, s 2 j = .nan → (∀ q, (![1, 0, 2] : Fin 3 → Fin 4) q = j → ∃ q, Ie.stripeMul fl (sw (s 1) ![2, 1, 0])
        (Ie.vpd pd (sw (s 2) ![1, 0, 2]) (sw (s 3) ![0, 2, 1]) (sw (s 2) ![0, 2, 1]) (sw (s 3) ![1, 0, 2])) q = .nan) := fun j h q e => ⟨q, by
      unfold Ie.stripeMul Ie.vpd sw; rw [e, h, hpd.nan1, Fx.mul_nan']⟩
    have e2 : ∀ j, s 3 j = .nan → (∀ q, (![0, 2, 1] : Fin 3 → Fin 4) q = j → ∃ q, Ie.stripeMul fl (sw (s 1) ![2, 1, 0])
        (Ie.vpd pd (sw (s 2) ![1, 0, 2]) (sw (s 3) ![0, 2, 1]) (sw (s 2) ![0, 2, 1]) (sw (s 3) ![1, 0, 2])) q = .nan) := fun j h q e => ⟨q, by
      unfold Ie.stripeMul Ie.vpd sw; rw [e, h, hpd.nan2, Fx.mul_nan']⟩
    have e3 : ∀ j, s 1 j = .nan → (∀ q, (![2, 1, 0] : Fin 3 → Fin 4) q = j → ∃ q, Ie.stripeMul fl (sw (s 1) ![2, 1, 0])
        (Ie.vpd pd (sw (s 2) ![1, 0, 2]) (sw (s 3) ![0, 2, 1]) (sw (s 2) ![0, 2, 1]) (sw (s 3) ![1, 0, 2])) q = .nan) := fun j h q e => ⟨q, by
      unfold Ie.stripeMul Ie.vpd sw; rw [e, h, Fx.nan_mul']⟩
    fin_cases i <;> fin_cases j <;> simp only [Fin.zero_eta, Fin.mk_one, Fin.reduceFinMk] at h
    -- row 0
    · exact Or.inr (Or.inr (Or.inl ⟨2, by simp [Ie.stripeMul, sw, h, Fx.nan_mul', Fx.mul_nan']⟩))
    · exact Or.inr (Or.inr (Or.inl ⟨0, by simp [Ie.stripeMul, sw, h, Fx.nan_mul', Fx.mul_nan']⟩))
    · exact Or.inl h
    · exact Or.inr (Or.inl h)
    -- row 1
    · exact Or.inr (Or.inr (Or.inr (Or.inl (e3 _ h 2 rfl))))
    · exact Or.inr (Or.inr (Or.inr (Or.inl (e3 _ h 1 rfl))))
    · exact Or.inr (Or.inr (Or.inr (Or.inl (e3 _ h 0 rfl))))
    · exact Or.inr (Or.inr (Or.inl ⟨0, by simp [Ie.stripeMul, sw, h, Fx.nan_mul', Fx.mul_nan']⟩))
    -- row 2
    · exact Or.inr (Or.inr (Or.inr (Or.inl (e1 _ h 1 rfl))))
    · exact Or.inr (Or.inr (Or.inr (Or.inl (e1 _ h 0 rfl))))
    · exact Or.inr (Or.inr (Or.inr (Or.inl (e1 _ h 2 rfl))))
    · exact Or.inr (Or.inr (Or.inl ⟨1, by simp [Ie.stripeMul, sw, h, Fx.nan_mul', Fx.mul_nan']⟩))
    -- row 3
    · exact Or.inr (Or.inr (Or.inr (Or.inl (e2 _ h 0 rfl))))
    · exact Or.inr (Or.inr (Or.inr (Or.inl (e2 _ h 2 rfl))))
    · exact Or.inr (Or.inr (Or.inr (Or.inl (e2 _ h 1 rfl))))
    · refine Or.inr (Or.inr (Or.inr (Or.inr ⟨2, ?_⟩)))
      have e : (![1, 0, 3] : Fin 3 → Fin 4) 2 = 3 := rfl
      unfold Ie.stripeMul Ie.vpd sw
      rw [e, h, hpd.nan2, Fx.mul_nan']
  unfold Ie.det4Stripes
  dsimp only
  rcases key with h | h | ⟨q, h⟩ | ⟨q, h⟩ | ⟨q, h⟩
  · rw [h]; exact hadd.nan1 _ _
  · rw [h, hadd.nan1]; exact hadd.nan3 _ _
  · rw [vsum_nan tb4 ts4 htb4 hts4 _ q h, Fx.nan_add', Fx.nan_add', hadd.nan3]; exact hadd.nan3 _ _
  · rw [vsum_nan tb3 ts3 htb3 hts3 (Ie.stripeMul fl (sw (s 1) ![2, 1, 0]) _) q h, hadd.nan2]; exact hadd.nan3 _ _
  · rw [vsum_nan tb3 ts3 htb3 hts3 (Ie.stripeMul fl (sw (s 1) ![3, 1, 0]) _) q h]; exact hadd.nan2 _ _

private theorem stripes_nan (L : Layout) (m : Matrix (Fin n) (Fin n) Fx) (h : ∃ i j, m i j = .nan) : ∃ i j, stripesOf L m i j = .nan := by
  obtain ⟨i, j, h⟩ := h
  cases L
  · exact ⟨i, j, h⟩
  · exact ⟨j, i, h⟩

/-- C117: the determinant of a 3×3 matrix with a NaN is NaN, ... -/
theorem C117_det3 {p : Bool} (hpd : Fx.IsProdDiff fl pd) (tb : RTree (batchSize 3 false)) (ts : RTree (3 + 1)) (htb : tb.Valid) (hts : ts.Valid) (L : Layout)
    (m : Matrix (Fin 3) (Fin 3) Fx) (h : ∃ i j, m i j = .nan) : Ie.det3Stripes c p fl pd tb ts (stripesOf L m) = .nan := by
  obtain ⟨i, j, h⟩ := stripes_nan L m h
  exact det3_nan hpd tb ts htb hts _ i j h

/-- C117: ... and so is that of a 4×4 matrix. -/
theorem C117_det4 {p : Bool} (hpd : Fx.IsProdDiff fl pd) (hadd : Fx.IsMulAdd fl madd) (tb3 : RTree (batchSize 3 false)) (ts3 : RTree (3 + 1))
    (tb4 : RTree (batchSize 4 false)) (ts4 : RTree (4 + 1)) (htb3 : tb3.Valid) (hts3 : ts3.Valid) (htb4 : tb4.Valid) (hts4 : ts4.Valid) (L : Layout)
    (m : Matrix (Fin 4) (Fin 4) Fx) (h : ∃ i j, m i j = .nan) : Ie.det4Stripes c p fl pd madd tb3 ts3 tb4 ts4 (stripesOf L m) = .nan := by
  obtain ⟨i, j, h⟩ := stripes_nan L m h
  exact det4_nan hpd hadd tb3 ts3 tb4 ts4 htb3 hts3 _ i j h htb4 hts4

private theorem stripes_all (L : Layout) (f : Fin n → Fin n → Fx) (h : ∀ i j, f i j = .nan) (i j : Fin n) : stripesOf L (Matrix.of f) i j = .nan := by
  cases L
  · exact h i j
  · exact h j i

/-- C117: every element of the inverse of a 2×2 matrix with a NaN is NaN, ... -/
theorem C117_inv2 (hpd : Fx.IsProdDiff fl pd) (L : Layout) (m : Matrix (Fin 2) (Fin 2) Fx) (h : ∃ i j, m i j = .nan) (i j : Fin 2) :
    Ie.inv2 fl pd L m i j = .nan := by
  refine stripes_all L _ (fun a b => ?_) i j
  have hd : pd (stripesOf L m 0 0) (stripesOf L m 1 1) (stripesOf L m 0 1) (stripesOf L m 1 0) = .nan := by
    obtain ⟨i, j, h⟩ := stripes_nan L m h
    fin_cases i <;> fin_cases j <;> simp only [Fin.zero_eta, Fin.mk_one] at h <;> rw [h]
    · exact hpd.nan1 _ _ _
    · exact hpd.nan3 _ _ _
    · exact hpd.nan4 _ _ _
    · exact hpd.nan2 _ _ _
  show Fx.div fl _ (pd (stripesOf L m 0 0) (stripesOf L m 1 1) (stripesOf L m 0 1) (stripesOf L m 1 0)) = .nan
  rw [hd]
  exact Fx.div_nan' _

/-- C117: ... of a 3×3 matrix, ... -/
theorem C117_inv3 {p : Bool} (hpd : Fx.IsProdDiff fl pd) (tb : RTree (batchSize 3 false)) (ts : RTree (3 + 1)) (htb : tb.Valid) (hts : ts.Valid) (L : Layout)
    (m : Matrix (Fin 3) (Fin 3) Fx) (h : ∃ i j, m i j = .nan) (i j : Fin 3) : Ie.inv3 c p fl pd tb ts L m i j = .nan := by
  refine stripes_all L _ (fun a b => ?_) i j
  show Fx.div fl _ (Ie.det3Stripes c p fl pd tb ts (stripesOf L m)) = .nan
  rw [C117_det3 hpd tb ts htb hts L m h]
  exact Fx.div_nan' _

/-- C117: ... and of a 4×4 matrix. -/
theorem C117_inv4 {p : Bool} (hpd : Fx.IsProdDiff fl pd) (hadd : Fx.IsMulAdd fl madd) (tb3 : RTree (batchSize 3 false)) (ts3 : RTree (3 + 1))
    (tb4 : RTree (batchSize 4 false)) (ts4 : RTree (4 + 1)) (htb3 : tb3.Valid) (hts3 : ts3.Valid) (htb4 : tb4.Valid) (hts4 : ts4.Valid) (L : Layout)
    (m : Matrix (Fin 4) (Fin 4) Fx) (h : ∃ i j, m i j = .nan) (i j : Fin 4) : Ie.inv4 c p fl pd madd msub tb3 ts3 tb4 ts4 L m i j = .nan := by
  refine stripes_all L _ (fun a b => ?_) i j
  show Fx.div fl _ (Ie.det4Stripes c p fl pd madd tb3 ts3 tb4 ts4 (stripesOf L m)) = .nan
  rw [C117_det4 hpd hadd tb3 ts3 tb4 ts4 htb3 hts3 htb4 hts4 L m h]
  exact Fx.div_nan' _

/-- Non-vacuity: the operations without fused steps. -/
example : Fx.IsProdDiff .fin (fun a b c d => Fx.sub .fin (Fx.mul .fin a b) (Fx.mul .fin c d)) ∧
    Fx.IsMulAdd .fin (fun a b d => Fx.add .fin (Fx.mul .fin a b) d) ∧ ∃ i j, (Matrix.of ![![.fin 1, .fin 2], ![.nan, .fin 4]] : Matrix (Fin 2) (Fin 2) Fx) i j = .nan :=
  ⟨fun _ _ _ _ => Or.inl rfl, fun _ _ _ => Or.inl rfl, 1, 0, rfl⟩

/-! ## C118 -/

/-- C118, the part that holds: the determinant of a matrix of dimension 1 or 5 and above (`BareissAlgorithm`) with a NaN in the first row is NaN or exactly
zero. Missing: a NaN in the first row is not always in the result, and one in another row may be lost altogether; see `C118_violated`. -/
theorem C118_partial (hpd : Fx.IsProdDiff fl pd) (m : Matrix (Fin (n + 1)) (Fin (n + 1)) Fx) (h : ∃ j, m 0 j = .nan) :
    Ie.bareiss fl pd m = .nan ∨ Ie.bareiss fl pd m = .fin 0 := by
  unfold Ie.bareiss
  have := forUp_inv (n := n) (lo := 0) (body := fun k => Ie.bareissStep fl pd k.castSucc) (s := some ⟨fun i j => m i j, false⟩)
    (fun t s => ∀ b, s = some b → (t = 0 → b.inPlace = fun i j => m i j) ∧ (0 < t → Ie.RowsNan' b.inPlace t)) (Nat.zero_le _)
    (by rintro b hb; cases hb; exact ⟨fun _ => rfl, fun h => absurd h (lt_irrefl _)⟩) (by
      rintro k s - hs b hb
      refine ⟨fun h => by omega, fun _ => ?_⟩
      cases s with
      | none => simp [Ie.bareissStep] at hb
      | some b0 =>
        obtain ⟨h0, h1⟩ := hs b0 rfl
        simp only [Ie.bareissStep, Option.bind_some] at hb
        by_cases hk : k.castSucc.val = 0
        · rw [dif_pos hk] at hb
          cases hb
          have e := h0 hk
          dsimp only
          rw [e]
          obtain ⟨j, hj⟩ := h
          have ek : k.castSucc = 0 := Fin.ext hk
          have hk' : k.val + 1 = 1 := by have : k.val = 0 := hk; omega
          rw [hk', ek]
          refine ⟨fun i hi => ?_, fun kp hkp => ⟨j, by omega, ?_⟩⟩
          · have hi0 : (0 : Fin (n + 1)) < i := Fin.lt_def.2 hi
            by_cases hj0 : j = 0
            · refine ⟨i, hi, ?_⟩
              rw [Ie.bareissElim_eq, if_pos ⟨hi0, hi0⟩, ← hj0]
              subst hj0
              rw [hj, hpd.nan2, Fx.nan_div']
            · have hj1 : (0 : Fin (n + 1)) < j := Fin.pos_of_ne_zero hj0
              refine ⟨j, Fin.lt_def.1 hj1, ?_⟩
              rw [Ie.bareissElim_eq, if_pos ⟨hi0, hj1⟩, hj, hpd.nan4, Fx.nan_div']
          · have : kp = 0 := Fin.ext (by simpa using hkp)
            rw [this, Ie.bareissElim_eq, if_neg (fun h => lt_irrefl _ h.1), hj]
        · rw [dif_neg hk] at hb
          have hr := h1 (Nat.pos_of_ne_zero hk)
          have hp := Ie.RowsNan'.pivot (k := k.castSucc) (kp := ⟨k.castSucc.val - 1, by omega⟩) (b := b0) (by simp only; omega) hr
          split at hb
          · cases hb
          · cases hb
            exact hp.elim hpd _)
  split
  · exact Or.inr rfl
  · rename_i b hb
    left
    obtain ⟨h0, h1⟩ := this b hb
    have hl : b.inPlace (Fin.last n) (Fin.last n) = .nan := by
      rcases Nat.eq_zero_or_pos n with hn | hn
      · subst hn
        rw [h0 rfl]
        obtain ⟨j, hj⟩ := h
        rw [show j = 0 from Fin.ext (by have := j.isLt; simp)] at hj
        exact hj
      · obtain ⟨c, hc, e⟩ := (h1 hn).1 (Fin.last n) le_rfl
        rwa [show c = Fin.last n from Fin.ext (by have := c.isLt; simp; omega)] at e
    rw [hl]
    cases b.flipSign <;> rfl

/-- C118, the part that holds: a NaN in the first element makes the determinant NaN. -/
theorem C118_first_partial (hpd : Fx.IsProdDiff fl pd) (m : Matrix (Fin (n + 1)) (Fin (n + 1)) Fx) (h : m 0 0 = .nan) : Ie.bareiss fl pd m = .nan := by
  unfold Ie.bareiss
  have := forUp_inv (n := n) (lo := 0) (body := fun k => Ie.bareissStep fl pd k.castSucc) (s := some ⟨fun i j => m i j, false⟩)
    (fun t s => ∃ b, s = some b ∧ (t = 0 → b.inPlace 0 0 = .nan) ∧ (0 < t → ∀ i j, (t ≤ i.val ∧ t ≤ j.val ∨ i = j ∧ i.val + 1 = t) → b.inPlace i j = .nan))
    (Nat.zero_le _) ⟨_, rfl, fun _ => h, fun h => absurd h (lt_irrefl _)⟩ (by
      rintro k s - ⟨b0, rfl, h0, h1⟩
      simp only [Ie.bareissStep, Option.bind_some]
      by_cases hk : k.castSucc.val = 0
      · rw [dif_pos hk]
        refine ⟨_, rfl, fun h => by omega, fun _ i j hij => ?_⟩
        have ek : k.castSucc = 0 := Fin.ext hk
        have hk' : k.val = 0 := hk
        have e := h0 hk
        dsimp only
        rw [ek, Ie.bareissElim_eq]
        rcases hij with ⟨hi, hj⟩ | ⟨hi, hj⟩
        · rw [if_pos ⟨Fin.lt_def.2 (by simp; omega), Fin.lt_def.2 (by simp; omega)⟩, e, hpd.nan2, Fx.nan_div']
        · have hi0 : i = 0 := Fin.ext (by simp; omega)
          rw [← hi, hi0, if_neg (fun h => lt_irrefl _ h.1), e]
      · rw [dif_neg hk]
        have hpos := Nat.pos_of_ne_zero hk
        have hn := h1 hpos
        have e : b0.inPlace ⟨k.castSucc.val - 1, by omega⟩ ⟨k.castSucc.val - 1, by omega⟩ = .nan := by
          apply hn _ _ (Or.inr ⟨rfl, ?_⟩)
          have : k.castSucc.val = k.val := rfl
          simp only
          omega
        have hl := forUp_inv (n := n + 1) (lo := k.castSucc.val) (body := Ie.bareissPivotStep ⟨k.castSucc.val - 1, by omega⟩)
          (s := (b0, b0.inPlace ⟨k.castSucc.val - 1, by omega⟩ ⟨k.castSucc.val - 1, by omega⟩)) (fun _ s => s = (b0, .nan)) k.castSucc.isLt.le
          (by rw [e]) (by
            rintro i _ - rfl
            unfold Ie.bareissPivotStep
            simp [Fx.isZero])
        rw [hl]
        dsimp only
        rw [if_neg (by simp [Fx.isZero])]
        refine ⟨_, rfl, fun h => by omega, fun _ i j hij => ?_⟩
        dsimp only
        rw [Ie.bareissElim_eq, Fx.div_nan']
        split
        · rfl
        · rename_i hc
          apply hn
          left
          have : k.castSucc.val = k.val := rfl
          rcases hij with ⟨hi, hj⟩ | ⟨hi, hj⟩
          · exact absurd ⟨Fin.lt_def.2 (by omega), Fin.lt_def.2 (by omega)⟩ hc
          · subst hi; omega)
  obtain ⟨b, hb, h0, h1⟩ := this
  rw [hb]
  dsimp only
  have hl : b.inPlace (Fin.last n) (Fin.last n) = .nan := by
    rcases Nat.eq_zero_or_pos n with hn | hn
    · subst hn; exact h0 rfl
    · exact h1 hn _ _ (Or.inl ⟨le_rfl, le_rfl⟩)
  rw [hl]
  cases b.flipSign <;> rfl

/-- Non-vacuity: a 5×5 matrix with a NaN in the first row. -/
example : ∃ j, (Matrix.of fun i j => if i = 0 ∧ j = 3 then .nan else .fin 1 : Matrix (Fin 5) (Fin 5) Fx) 0 j = .nan := ⟨3, rfl⟩

/-- The divisor of iteration `k` of a fraction-free elimination: one, then the previous pivot. -/
def iePrevPivot (X : ℕ → Fin (n + 1) → Fin (n + 1) → Fx) (k : Fin (n + 1)) : Fx :=
  if k.val = 0 then .fin 1 else X (k.val - 1) ⟨k.val - 1, by omega⟩ ⟨k.val - 1, by omega⟩

/-- `X t` is the matrix after `t` iterations of a fraction-free elimination without row exchanges. -/
def IeBareissRun (fl : ℝ → Fx) (pd : Fx → Fx → Fx → Fx → Fx) (m : Fin (n + 1) → Fin (n + 1) → Fx) (X : ℕ → Fin (n + 1) → Fin (n + 1) → Fx) : Prop :=
  X 0 = m ∧ ∀ k : Fin n, X (k.val + 1) = fun i j => if k.castSucc < i ∧ k.castSucc < j
    then Fx.div fl (pd (X k.val i j) (X k.val k.castSucc k.castSucc) (X k.val i k.castSucc) (X k.val k.castSucc j)) (iePrevPivot X k.castSucc) else X k.val i j

/-- C118, the part that holds: a NaN anywhere makes the determinant NaN, provided that no pivot is zero. Missing: zero pivots (`C118_violated`). -/
theorem C118_pivots_partial (hpd : Fx.IsProdDiff fl pd) (m : Matrix (Fin (n + 1)) (Fin (n + 1)) Fx) {X : ℕ → Fin (n + 1) → Fin (n + 1) → Fx}
    (hX : IeBareissRun fl pd m X) (hp : ∀ k : Fin (n + 1), k.val + 1 < n → (X k.val k k).isZero = false) (h : ∃ i j, m i j = .nan) :
    Ie.bareiss fl pd m = .nan := by
  obtain ⟨hX0, hX1⟩ := hX
  -- what an iteration has finished stays
  have stay : ∀ (k : Fin (n + 1)) (t : ℕ), k.val ≤ t → t ≤ n → X t k k = X k.val k k := by
    intro k t hkt
    induction t, hkt using Nat.le_induction with
    | base => intro _; rfl
    | succ t hkt ih =>
      intro ht
      rw [hX1 ⟨t, by omega⟩]
      dsimp only
      rw [if_neg (by rintro ⟨h1, -⟩; have := Fin.lt_def.1 h1; simp at this; omega)]
      exact ih (by omega)
  have hloop : forUp n 0 (fun k => Ie.bareissStep fl pd k.castSucc) (some ⟨fun i j => m i j, false⟩) = some ⟨X n, false⟩ := by
    refine forUp_inv (n := n) (lo := 0) (body := fun k => Ie.bareissStep fl pd k.castSucc) (s := some ⟨fun i j => m i j, false⟩)
      (fun t s => s = some ⟨X t, false⟩) (Nat.zero_le _) (by rw [hX0]) ?_
    rintro k s - rfl
    simp only [Ie.bareissStep, Option.bind_some]
    by_cases hk : k.castSucc.val = 0
    · rw [dif_pos hk, hX1 k]
      congr 2
      funext i j
      rw [Ie.bareissElim_eq]
      unfold iePrevPivot
      rw [if_pos hk]
    · rw [dif_neg hk]
      have hkv : k.castSucc.val = k.val := rfl
      have hz : (X k.val ⟨k.castSucc.val - 1, by omega⟩ ⟨k.castSucc.val - 1, by omega⟩).isZero = false := by
        rw [stay _ _ (by dsimp only; omega) (by omega)]
        exact hp _ (by dsimp only; omega)
      have hl := forUp_inv (n := n + 1) (lo := k.castSucc.val) (body := Ie.bareissPivotStep ⟨k.castSucc.val - 1, by omega⟩)
        (s := ((⟨X k.val, false⟩ : Bareiss Fx (n + 1)), X k.val ⟨k.castSucc.val - 1, by omega⟩ ⟨k.castSucc.val - 1, by omega⟩))
        (fun _ s => s = (⟨X k.val, false⟩, X k.val ⟨k.castSucc.val - 1, by omega⟩ ⟨k.castSucc.val - 1, by omega⟩)) k.castSucc.isLt.le rfl (by
          rintro i _ - rfl
          unfold Ie.bareissPivotStep
          simp only [hz, Bool.false_eq_true, if_false])
      rw [hl]
      dsimp only
      rw [hz, if_neg (by simp), hX1 k]
      congr 2
      funext i j
      rw [Ie.bareissElim_eq]
      unfold iePrevPivot
      rw [if_neg hk, stay ⟨k.castSucc.val - 1, by omega⟩ k.val (by dsimp only; omega) (by omega)]
  have hnan : ∀ t, t ≤ n → ∃ i j : Fin (n + 1), t ≤ i.val ∧ t ≤ j.val ∧ X t i j = .nan := by
    intro t
    induction t with
    | zero => intro _; obtain ⟨i, j, h⟩ := h; exact ⟨i, j, Nat.zero_le _, Nat.zero_le _, by rw [hX0]; exact h⟩
    | succ t ih =>
      intro ht
      obtain ⟨i, j, hi, hj, e⟩ := ih (by omega)
      rw [hX1 ⟨t, by omega⟩]
      dsimp only
      have hlt : ∀ i : Fin (n + 1), t + 1 ≤ i.val → (⟨t, by omega⟩ : Fin n).castSucc < i := fun i hi => Fin.lt_def.2 (by simp; omega)
      have hlast := hlt (Fin.last n) (by simp; omega)
      have heq : ∀ i : Fin (n + 1), i.val = t → i = (⟨t, by omega⟩ : Fin n).castSucc := fun i hi => Fin.ext (by simp [hi])
      by_cases hit : i.val = t
      · by_cases hjt : j.val = t
        · refine ⟨Fin.last n, Fin.last n, by simp; omega, by simp; omega, ?_⟩
          rw [heq i hit, heq j hjt] at e
          rw [if_pos ⟨hlast, hlast⟩, e, hpd.nan2, Fx.nan_div']
        · refine ⟨Fin.last n, j, by simp; omega, by omega, ?_⟩
          rw [heq i hit] at e
          rw [if_pos ⟨hlast, hlt j (by omega)⟩, e, hpd.nan4, Fx.nan_div']
      · by_cases hjt : j.val = t
        · refine ⟨i, Fin.last n, by omega, by simp; omega, ?_⟩
          rw [heq j hjt] at e
          rw [if_pos ⟨hlt i (by omega), hlast⟩, e, hpd.nan3, Fx.nan_div']
        · refine ⟨i, j, by omega, by omega, ?_⟩
          rw [if_pos ⟨hlt i (by omega), hlt j (by omega)⟩, e, hpd.nan1, Fx.nan_div']
  obtain ⟨i, j, hi, hj, e⟩ := hnan n le_rfl
  rw [show i = Fin.last n from Fin.ext (by simp; omega), show j = Fin.last n from Fin.ext (by simp; omega)] at e
  unfold Ie.bareiss
  rw [hloop]
  simpa using e

/-- Non-vacuity: the identity with NaN in the last column; the elimination changes nothing. -/
example : Ie.bareiss Fx.fin (fun a b c d => Fx.sub Fx.fin (Fx.mul Fx.fin a b) (Fx.mul Fx.fin c d))
    (Matrix.of fun i j => if j = 4 then .nan else if i = j then .fin 1 else .fin 0 : Matrix (Fin 5) (Fin 5) Fx) = .nan := by
  refine C118_pivots_partial (fun a b c d => Or.inl rfl) _ (X := fun _ i j => if j = 4 then .nan else if i = j then .fin 1 else .fin 0) ⟨rfl, fun k => ?_⟩
    (fun k hk => ?_) ⟨0, 4, rfl⟩
  · funext i j
    have hk4 : (k.castSucc : Fin 5) ≠ 4 := Fin.ne_of_lt (Fin.lt_def.2 k.isLt)
    have hprev : iePrevPivot (n := 4) (fun _ i j => if j = 4 then .nan else if i = j then .fin 1 else .fin 0) k.castSucc = .fin 1 := by
      unfold iePrevPivot
      split
      · rfl
      · dsimp only
        rw [if_neg (fun h => by have := congrArg Fin.val h; simp at this; omega), if_pos rfl]
    rw [hprev]
    by_cases hj : j = 4
    · simp [hj, Fx.mul_nan', Fx.nan_mul', Fx.nan_sub', Fx.nan_div']
    · split
      · rename_i h
        have h1 : i ≠ k.castSucc := h.1.ne'
        have h2 : k.castSucc ≠ j := h.2.ne
        by_cases hij : i = j
        · simp [hj, hk4, h2, h2.symm, hij, Fx.mul, Fx.sub, Fx.add, Fx.neg, Fx.div]
        · simp [hj, hk4, h1, h2, hij, Fx.mul, Fx.sub, Fx.add, Fx.neg, Fx.div]
      · rfl
  · rw [if_neg (fun h => by rw [h] at hk; simp at hk), if_pos rfl]
    simp [Fx.isZero]

/-- C118 fails: if the first column is zero, the determinant is zero whatever the other elements are, NaN included. -/
theorem C118_violated (m : Matrix (Fin (n + 5)) (Fin (n + 5)) Fx) (h : ∀ i, m i 0 = .fin 0) : Ie.bareiss (n := n + 4) fl pd m = .fin 0 := by
  unfold Ie.bareiss
  have := forUp_inv (n := n + 4) (lo := 0) (body := fun k => Ie.bareissStep fl pd k.castSucc) (s := some ⟨fun i j => m i j, false⟩)
    (fun t s => (t ≤ 1 → ∃ b, s = some b ∧ ∀ i, b.inPlace i 0 = .fin 0) ∧ (1 < t → s = none)) (Nat.zero_le _)
    ⟨fun _ => ⟨_, rfl, h⟩, fun h => by omega⟩ (by
      rintro k s - ⟨h0, h1⟩
      refine ⟨fun hk => ?_, fun hk => ?_⟩
      · have hk0 : k.castSucc.val = 0 := by have : k.castSucc.val = k.val := rfl; omega
        obtain ⟨b, rfl, hb⟩ := h0 (by omega)
        simp only [Ie.bareissStep, Option.bind_some]
        rw [dif_pos hk0]
        refine ⟨_, rfl, fun i => ?_⟩
        dsimp only
        rw [Ie.bareissElim_eq, if_neg (fun h => by have := Fin.lt_def.1 h.2; simp at this), hb]
      · by_cases hk1 : k.val = 1
        · obtain ⟨b, rfl, hb⟩ := h0 (by omega)
          simp only [Ie.bareissStep, Option.bind_some]
          have hk1' : k.castSucc.val = 1 := hk1
          rw [dif_neg (by omega)]
          have ekp : (⟨k.castSucc.val - 1, by omega⟩ : Fin (n + 4 + 1)) = 0 := Fin.ext (by simp; omega)
          rw [ekp, hb 0]
          have hl := forUp_inv (n := n + 4 + 1) (lo := k.castSucc.val) (body := Ie.bareissPivotStep 0) (s := (b, .fin 0)) (fun _ s => s = (b, .fin 0))
            k.castSucc.isLt.le rfl (by
              rintro i _ - rfl
              unfold Ie.bareissPivotStep
              simp [Fx.isZero, hb i])
          rw [hl]
          simp [Fx.isZero]
        · rw [h1 (by omega)]; rfl)
  rw [this.2 (by omega)]

/-- Witness: the zero first column, NaN everywhere else. -/
example : Ie.bareiss fl pd (Matrix.of fun _ j => if j = 0 then .fin 0 else .nan : Matrix (Fin 5) (Fin 5) Fx) = .fin 0 :=
  C118_violated (n := 0) _ fun _ => rfl

end Mathter.Props
