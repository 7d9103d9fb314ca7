import Verif.Lemmas.RoundedNear
import Verif.Props.Determinant
import Verif.Props.RoundedReduce
import Verif.Spec.Permanent

/-!
# C102, C103: rounding errors of the determinants and inverses of small matrices

The errors are relative to `absPerm`, the sum of the absolute values of the terms of the determinant.
-/

namespace Mathter.Props
open Mathter
variable {n : ℕ} {fl : ℝ → ℝ} {u : ℝ}

private theorem one_le (h : Rounding fl u) (k : ℕ) : 1 ≤ (1 + u) ^ k := h.one_le k

private theorem near_sum (h : Rounding fl u) (c : Cfg) (p : Bool) {k : ℕ} (tb : RTree (batchSize (n + 1) false)) (ts : RTree (n + 1 + 1)) (htb : tb.Valid)
    (hts : ts.Valid) {y x M : Fin (n + 1) → ℝ} (hy : ∀ i, fl (y i) = y i) (a : ∀ i, Near u k (y i) (x i) (M i)) :
    Near u (k + n) (Fl.vsum c p fl tb ts y) (∑ i, x i) (∑ i, M i) := by
  have s := C76_sum h tb ts htb hts (Vec.ofFn y : Vec c ℝ (n + 1) p) (fun i => by rw [Vec.get_ofFn]; exact hy i)
  simp only [Vec.get_ofFn] at s
  change |Fl.vsum c p fl tb ts y - _| ≤ _ at s
  refine ⟨?_, (Finset.abs_sum_le_sum_abs _ _).trans (Finset.sum_le_sum fun i _ => (a i).bound)⟩
  have t := abs_add_le (Fl.vsum c p fl tb ts y - ∑ i, y i) (∑ i, y i - ∑ i, x i)
  rw [sub_add_sub_cancel] at t
  have t2 : |∑ i, y i - ∑ i, x i| ≤ ((1 + u) ^ k - 1) * ∑ i, M i := by
    rw [← Finset.sum_sub_distrib, Finset.mul_sum]
    exact (Finset.abs_sum_le_sum_abs _ _).trans (Finset.sum_le_sum fun i _ => (a i).err)
  have t3 : ∑ i, |y i| ≤ (1 + u) ^ k * ∑ i, M i := by
    rw [Finset.mul_sum]; exact Finset.sum_le_sum fun i _ => (a i).abs_le
  have t4 := mul_le_mul_of_nonneg_left t3 (by have := one_le h n; simp; linarith : 0 ≤ (1 + u) ^ (n + 1 - 1) - 1)
  rw [Nat.add_sub_cancel] at t4 s
  rw [pow_add]
  linarith

/-! ## C102 -/

private theorem absPerm_stripesOf (L : Layout) (A : Matrix (Fin n) (Fin n) ℝ) : absPerm (stripesOf L A) = absPerm A := by
  cases L
  · rfl
  · exact absPerm_transpose A

private theorem det_stripes (L : Layout) (A : Matrix (Fin n) (Fin n) ℝ) : (stripesOf L A).det = A.det := by
  cases L
  · rfl
  · exact Matrix.det_transpose A

/-- C102: the determinant of a 2×2 matrix. -/
theorem C102_det2 (h : Rounding fl u) {pd : ℝ → ℝ → ℝ → ℝ → ℝ} (hp : Fl.IsProdDiff fl pd) (A : Matrix (Fin 2) (Fin 2) ℝ) :
    |Fl.det2 pd A - A.det| ≤ ((1 + u) ^ 2 - 1) * absPerm A := by
  have := ((Near.exact (u := u) (A 0 0)).pd h hp (Near.exact (A 1 1)) (Near.exact (A 1 0)) (Near.exact (A 0 1))).err
  rw [Matrix.det_fin_two]
  unfold absPerm
  rw [permanent_two]
  simp only [Matrix.map_apply]
  rw [mul_comm (A 0 1)]
  exact this

private theorem minors_near (h : Rounding fl u) {pd : ℝ → ℝ → ℝ → ℝ → ℝ} (hp : Fl.IsProdDiff fl pd) (c : Cfg) (p : Bool) (tb : RTree (batchSize 3 false))
    (ts : RTree (3 + 1)) (htb : tb.Valid) (hts : ts.Valid) (e a b a' b' : Fin 3 → ℝ) :
    Near u 5 (Fl.vsum c p fl tb ts (Fl.stripeMul fl e (Fl.vpd pd a b a' b'))) (∑ i, e i * (a i * b i - a' i * b' i))
      (∑ i, |e i| * (|a i| * |b i| + |a' i| * |b' i|)) :=
  near_sum h c p tb ts htb hts (fun _ => h.idem _) fun i =>
    (Near.exact (u := u) (e i)).mul h ((Near.exact (a i)).pd h hp (Near.exact (b i)) (Near.exact (a' i)) (Near.exact (b' i)))

private theorem det3_near (h : Rounding fl u) {pd : ℝ → ℝ → ℝ → ℝ → ℝ} (hp : Fl.IsProdDiff fl pd) (c : Cfg) (p : Bool) (tb : RTree (batchSize 3 false))
    (ts : RTree (3 + 1)) (htb : tb.Valid) (hts : ts.Valid) (s : Matrix (Fin 3) (Fin 3) ℝ) :
    Near u 5 (Fl.det3Stripes c p fl pd tb ts s) s.det (absPerm s) := by
  refine (minors_near h hp c p tb ts htb hts _ _ _ _ _).congr rfl ?_ ?_
  · rw [Matrix.det_fin_three, Fin.sum_univ_three]
    simp [sw]
    ring
  · unfold absPerm
    rw [permanent_three, Fin.sum_univ_three]
    simp [sw]
    ring

/-- C102: the determinant of a 3×3 matrix, either layout. -/
theorem C102_det3 (h : Rounding fl u) {pd : ℝ → ℝ → ℝ → ℝ → ℝ} (hp : Fl.IsProdDiff fl pd) (c : Cfg) (p : Bool) (tb : RTree (batchSize 3 false))
    (ts : RTree (3 + 1)) (htb : tb.Valid) (hts : ts.Valid) (L : Layout) (A : Matrix (Fin 3) (Fin 3) ℝ) :
    |Fl.det3Stripes c p fl pd tb ts (stripesOf L A) - A.det| ≤ ((1 + u) ^ 5 - 1) * absPerm A := by
  have := (det3_near h hp c p tb ts htb hts (stripesOf L A)).err
  rwa [absPerm_stripesOf, det_stripes] at this

private theorem quads_near (h : Rounding fl u) (c : Cfg) (p : Bool) (tb : RTree (batchSize 4 false))
    (ts : RTree (4 + 1)) (htb : tb.Valid) (hts : ts.Valid) (e a b a' b' : Fin 4 → ℝ) :
    Near u 7 (Fl.vsum c p fl tb ts (Fl.stripeMul fl e (Fl.stripeMul fl (Fl.stripeMul fl (Fl.stripeMul fl a b) a') b'))) (∑ i, e i * (a i * b i * a' i * b' i))
      (∑ i, |e i| * (|a i| * |b i| * |a' i| * |b' i|)) :=
  near_sum h c p tb ts htb hts (fun _ => h.idem _) fun i =>
    (Near.exact (u := u) (e i)).mul h ((((Near.exact (a i)).mul h (Near.exact (b i))).mul h (Near.exact (a' i))).mul h (Near.exact (b' i)))

private theorem det4_near (h : Rounding fl u) {pd : ℝ → ℝ → ℝ → ℝ → ℝ} (hp : Fl.IsProdDiff fl pd) {madd : ℝ → ℝ → ℝ → ℝ} (ha : Fl.IsMulAdd fl madd)
    (c : Cfg) (p : Bool) (tb3 : RTree (batchSize 3 false)) (ts3 : RTree (3 + 1)) (htb3 : tb3.Valid) (hts3 : ts3.Valid)
    (tb4 : RTree (batchSize 4 false)) (ts4 : RTree (4 + 1)) (htb4 : tb4.Valid) (hts4 : ts4.Valid) (s : Matrix (Fin 4) (Fin 4) ℝ) :
    Near u 11 (Fl.det4Stripes c p fl pd madd tb3 ts3 tb4 ts4 s) s.det (absPerm s) := by
  have q := quads_near h c p tb4 ts4 htb4 hts4
  have t := minors_near h hp c p tb3 ts3 htb3 hts3
  refine (Near.madd h ha (k := 0) (l := 5) (m := 10) (by norm_num) (Near.exact _) (t _ _ _ _ _)
    (Near.madd h ha (k := 0) (l := 5) (m := 9) (by norm_num) (Near.exact _) (t _ _ _ _ _)
      ((Near.add (((q _ _ _ _ _).add (q _ _ _ _ _)).round h) ((q _ _ _ _ _).mono h (Nat.le_succ 7))).round h))).congr rfl ?_ ?_
  · rw [← C28_det4 .row s]
    simp only [Fin.sum_univ_three, Fin.sum_univ_four, det4Stripes, stripesOf, Mathter.vsum, Pi.mul_apply, Pi.sub_apply]
    ring
  · unfold absPerm
    rw [permanent_four]
    simp [Fin.sum_univ_three, Fin.sum_univ_four, sw]
    ring

/-- C102: the determinant of a 4×4 matrix, either layout. -/
theorem C102_det4 (h : Rounding fl u) {pd : ℝ → ℝ → ℝ → ℝ → ℝ} (hp : Fl.IsProdDiff fl pd) {madd : ℝ → ℝ → ℝ → ℝ} (ha : Fl.IsMulAdd fl madd)
    (c : Cfg) (p : Bool) (tb3 : RTree (batchSize 3 false)) (ts3 : RTree (3 + 1)) (htb3 : tb3.Valid) (hts3 : ts3.Valid)
    (tb4 : RTree (batchSize 4 false)) (ts4 : RTree (4 + 1)) (htb4 : tb4.Valid) (hts4 : ts4.Valid) (L : Layout) (A : Matrix (Fin 4) (Fin 4) ℝ) :
    |Fl.det4Stripes c p fl pd madd tb3 ts3 tb4 ts4 (stripesOf L A) - A.det| ≤ ((1 + u) ^ 11 - 1) * absPerm A := by
  have := (det4_near h hp ha c p tb3 ts3 htb3 hts3 tb4 ts4 htb4 hts4 (stripesOf L A)).err
  rwa [absPerm_stripesOf, det_stripes] at this

/-- The bound is not vacuous: it separates nonsingular matrices such as this one from singular ones in single precision. -/
example : ((1 + (2 : ℝ) ^ (-((24 : ℕ) : ℤ))) ^ 5 - 1) * absPerm !![2, 0, 1; 1, -1, 0; 0, 4, 1] < |(!![2, 0, 1; 1, -1, 0; 0, 4, 1] : Matrix (Fin 3) (Fin 3) ℝ).det| ∧
    Rounding (flAway 24) ((2 : ℝ) ^ (-((24 : ℕ) : ℤ))) ∧ Fl.IsProdDiff (flAway 24) (fun a b c d => flAway 24 (a * b - flAway 24 (c * d))) := by
  refine ⟨?_, (flAway_roundsToNearest (by norm_num)).rounding (by norm_num), fun _ _ _ _ => Or.inr (Or.inl rfl)⟩
  unfold absPerm
  rw [permanent_three, Matrix.det_fin_three]
  simp
  norm_num

/-! ## C103 -/

/-- Bound for an element of the rounded inverse: `N` is the sum of the absolute terms of the cofactor, `P` that of the determinant `D`, `x` the exact
element and `γ` the relative error of cofactor and determinant. -/
noncomputable def inverseErr (u γ N P D x : ℝ) : ℝ := (1 + u) * γ * (N + P * |x|) / (|D| - γ * P) + u * |x|

private theorem quotient (h : Rounding fl u) {k : ℕ} {y x N d D P : ℝ} (a : Near u k y x N) (b : Near u k d D P) (hD : ((1 + u) ^ k - 1) * P < |D|) :
    d ≠ 0 ∧ |fl (y / d) - x / D| ≤ inverseErr u ((1 + u) ^ k - 1) N P D (x / D) := by
  unfold inverseErr
  generalize hγ : (1 + u) ^ k - 1 = γ at *
  have hγ0 : 0 ≤ γ := by rw [← hγ]; linarith [one_le h k]
  have ea : |y - x| ≤ γ * N := by rw [← hγ]; exact a.err
  have eb : |d - D| ≤ γ * P := by rw [← hγ]; exact b.err
  have hP := b.nonneg
  have hN := a.nonneg
  have hd1 : |D| - γ * P ≤ |d| := by
    have := abs_sub_abs_le_abs_sub D d
    rw [abs_sub_comm] at this; linarith
  have hpos : 0 < |D| - γ * P := by linarith
  have hd0 : d ≠ 0 := fun h0 => by rw [h0, abs_zero] at hd1; linarith
  have hD0 : D ≠ 0 := fun h0 => by rw [h0, abs_zero] at hD; linarith [mul_nonneg hγ0 hP]
  refine ⟨hd0, ?_⟩
  have e : y / d - x / D = ((y - x) + x / D * (D - d)) / d := by field_simp; ring
  have hx := abs_nonneg (x / D)
  have q : |y / d - x / D| ≤ γ * (N + P * |x / D|) / (|D| - γ * P) := by
    rw [e, abs_div]
    refine div_le_div₀ (by positivity) ((abs_add_le _ _).trans ?_) hpos hd1
    rw [abs_mul, abs_sub_comm D d]
    have := mul_le_mul_of_nonneg_left eb hx
    linarith
  have r := h.err (y / d)
  have t := abs_add_le (fl (y / d) - y / d) (y / d - x / D)
  rw [sub_add_sub_cancel] at t
  have t2 := abs_sub_abs_le_abs_sub (y / d) (x / D)
  have t3 := mul_le_mul_of_nonneg_left (by linarith : |y / d| ≤ |x / D| + γ * (N + P * |x / D|) / (|D| - γ * P)) h.u_nonneg
  rw [mul_assoc, mul_div_assoc]
  linarith

private theorem elements {K : ℕ} (h : Rounding fl u) (L : Layout) (A : Matrix (Fin (n + 1)) (Fin (n + 1)) ℝ) (cof cof' : Fin (n + 1) → Fin (n + 1) → ℝ) (d : ℝ)
    (hc : ∀ i j, Near u K (cof i j) (cof' i j) (absPerm ((stripesOf L A).submatrix j.succAbove i.succAbove)))
    (hd : Near u K d A.det (absPerm A)) (hA : ((1 + u) ^ K - 1) * absPerm A < |A.det|)
    (hinv : stripesOf L (Matrix.of fun i j => cof' i j / A.det) * A = 1) :
    d ≠ 0 ∧ ∀ i j, |stripesOf L (Matrix.of fun i j => fl (cof i j / d)) i j - A⁻¹ i j| ≤
      inverseErr u ((1 + u) ^ K - 1) (absPerm (A.submatrix j.succAbove i.succAbove)) (absPerm A) A.det (A⁻¹ i j) := by
  rw [Matrix.inv_eq_left_inv hinv]
  refine ⟨(quotient h (hc 0 0) hd hA).1, fun i j => ?_⟩
  cases L
  · exact (quotient h (hc i j) hd hA).2
  · have := (quotient h (hc j i) hd hA).2
    have e : absPerm ((stripesOf .col A).submatrix i.succAbove j.succAbove) = absPerm (A.submatrix j.succAbove i.succAbove) := by
      rw [← absPerm_transpose]; rfl
    rw [e] at this
    exact this

private theorem absPerm_one (A : Matrix (Fin 1) (Fin 1) ℝ) : absPerm A = |A 0 0| := by
  unfold absPerm; rw [Matrix.permanent_unique]; rfl

/-- C103: the inverse of a 2×2 matrix, either layout, exists and is accurate unless the determinant is of the size of the rounding error. -/
theorem C103_inv2 (h : Rounding fl u) {pd : ℝ → ℝ → ℝ → ℝ → ℝ} (hp : Fl.IsProdDiff fl pd) (L : Layout) (A : Matrix (Fin 2) (Fin 2) ℝ)
    (hA : ((1 + u) ^ 2 - 1) * absPerm A < |A.det|) :
    ∃ X, Fl.inv2 fl pd L A = some X ∧ ∀ i j, |X i j - A⁻¹ i j| ≤
      inverseErr u ((1 + u) ^ 2 - 1) (absPerm (A.submatrix j.succAbove i.succAbove)) (absPerm A) A.det (A⁻¹ i j) := by
  have hdet : A.det ≠ 0 := fun h0 => by
    rw [h0, abs_zero] at hA
    have : 0 ≤ absPerm A := by unfold absPerm; rw [permanent_two]; simp only [Matrix.map_apply]; positivity
    linarith [mul_nonneg (by linarith [one_le h 2] : 0 ≤ (1 + u) ^ 2 - 1) this]
  have hd : Near u 2 (pd (stripesOf L A 0 0) (stripesOf L A 1 1) (stripesOf L A 0 1) (stripesOf L A 1 0)) A.det (absPerm A) := by
    refine ((Near.exact (u := u) _).pd h hp (Near.exact _) (Near.exact _) (Near.exact _)).congr rfl ?_ ?_
    · rw [← det_stripes L A, Matrix.det_fin_two]
    · rw [← absPerm_stripesOf L A]
      unfold absPerm
      rw [permanent_two]
      simp only [Matrix.map_apply]
      ring
  have hi := (C30_inv2 L A).2 (stripesOf L (Matrix.of fun i j => Mathter.cof2Stripes (stripesOf L A) i j / A.det)) (by
    unfold Mathter.inv2 Mathter.inv2Stripes
    have e : stripesOf L A 0 0 * stripesOf L A 1 1 - stripesOf L A 0 1 * stripesOf L A 1 0 = A.det := by
      rw [← det_stripes L A, Matrix.det_fin_two]
    dsimp only
    rw [e, if_neg hdet]; rfl)
  obtain ⟨h1, h2⟩ := elements h L A (Mathter.cof2Stripes (stripesOf L A)) _ _ (fun i j => Near.mono h (Nat.zero_le 2) (by
    rw [absPerm_one]
    have e : |Mathter.cof2Stripes (stripesOf L A) i j| = |(stripesOf L A).submatrix j.succAbove i.succAbove 0 0| := by
      fin_cases i <;> fin_cases j <;> simp [Mathter.cof2Stripes]
    rw [← e]
    exact Near.exact _)) hd hA hi.1
  exact ⟨_, by unfold Fl.inv2 Fl.inv2Stripes; dsimp only; rw [if_neg h1]; rfl, h2⟩

private theorem cof3_near (h : Rounding fl u) {pd : ℝ → ℝ → ℝ → ℝ → ℝ} (hp : Fl.IsProdDiff fl pd) (s : Matrix (Fin 3) (Fin 3) ℝ) (i j : Fin 3) :
    Near u 2 (Fl.cof3Stripes pd s i j) (Mathter.cof3Stripes s i j) (absPerm (s.submatrix j.succAbove i.succAbove)) := by
  have q : ∀ a b c d : ℝ, Near u 2 (pd a b c d) (a * b - c * d) (|a| * |b| + |c| * |d|) := fun a b c d =>
    (Near.exact (u := u) a).pd h hp (Near.exact b) (Near.exact c) (Near.exact d)
  unfold absPerm
  rw [permanent_two]
  fin_cases i <;> fin_cases j <;> refine (q _ _ _ _).congr rfl rfl ?_ <;> simp [sw, Fin.succAbove] <;> ring

/-- C103: the inverse of a 3×3 matrix. -/
theorem C103_inv3 (h : Rounding fl u) {pd : ℝ → ℝ → ℝ → ℝ → ℝ} (hp : Fl.IsProdDiff fl pd) (c : Cfg) (p : Bool) (tb : RTree (batchSize 3 false))
    (ts : RTree (3 + 1)) (htb : tb.Valid) (hts : ts.Valid) (L : Layout) (A : Matrix (Fin 3) (Fin 3) ℝ) (hA : ((1 + u) ^ 5 - 1) * absPerm A < |A.det|) :
    ∃ X, Fl.inv3 c p fl pd tb ts L A = some X ∧ ∀ i j, |X i j - A⁻¹ i j| ≤
      inverseErr u ((1 + u) ^ 5 - 1) (absPerm (A.submatrix j.succAbove i.succAbove)) (absPerm A) A.det (A⁻¹ i j) := by
  have hd := (det3_near h hp c p tb ts htb hts (stripesOf L A)).congr rfl (det_stripes L A) (absPerm_stripesOf L A)
  have hdet : A.det ≠ 0 := fun h0 => by
    rw [h0, abs_zero] at hA
    linarith [mul_nonneg (by linarith [one_le h 5] : 0 ≤ (1 + u) ^ 5 - 1) hd.nonneg]
  have hi := (C30_inv3 L A).2 (stripesOf L (Matrix.of fun i j => Mathter.cof3Stripes (stripesOf L A) i j / A.det)) (by
    unfold Mathter.inv3 Mathter.inv3Stripes
    dsimp only
    rw [C28_det3 L A, if_neg hdet]; rfl)
  obtain ⟨h1, h2⟩ := elements h L A (Fl.cof3Stripes pd (stripesOf L A)) _ _ (fun i j => (cof3_near h hp _ i j).mono h (by norm_num)) hd hA hi.1
  exact ⟨_, by unfold Fl.inv3 Fl.inv3Stripes; dsimp only; rw [if_neg h1]; rfl, h2⟩

private theorem six_near (h : Rounding fl u) {pd : ℝ → ℝ → ℝ → ℝ → ℝ} (hp : Fl.IsProdDiff fl pd) {madd msub : ℝ → ℝ → ℝ → ℝ} (ha : Fl.IsMulAdd fl madd)
    (hs : Fl.IsMulSub fl msub) {k l : ℕ} (hkl : k + l = 1) {s a0 b0 a1 b1 a2 b2 a3 b3 a4 b4 a5 b5 x0 y0 x1 y1 x2 y2 x3 y3 x4 y4 x5 y5 : ℝ}
    {A0 B0 A1 B1 A2 B2 A3 B3 A4 B4 A5 B5 : ℝ}
    (ha0 : Near u k a0 x0 A0) (hb0 : Near u l b0 y0 B0) (ha1 : Near u k a1 x1 A1) (hb1 : Near u l b1 y1 B1) (ha2 : Near u k a2 x2 A2) (hb2 : Near u l b2 y2 B2)
    (ha3 : Near u k a3 x3 A3) (hb3 : Near u l b3 y3 B3) (ha4 : Near u k a4 x4 A4) (hb4 : Near u l b4 y4 B4) (ha5 : Near u k a5 x5 A5) (hb5 : Near u l b5 y5 B5) :
    Near u 8 (fl (s * msub (madd a4 b4 (madd a3 b3 (msub (pd a0 b0 a1 b1) a2 b2))) a5 b5))
      (s * (x4 * y4 + (x3 * y3 + (x0 * y0 - x1 * y1 - x2 * y2)) - x5 * y5))
      (|s| * (A4 * B4 + (A3 * B3 + (A0 * B0 + A1 * B1 + A2 * B2)) + A5 * B5)) := by
  have e1 := ha0.pd h hp hb0 ha1 hb1
  rw [hkl] at e1
  have e2 := Near.msub h hs (m := 3) (by omega) ha2 hb2 e1
  have e3 := Near.madd h ha (m := 4) (by omega) ha3 hb3 e2
  have e4 := Near.madd h ha (m := 5) (by omega) ha4 hb4 e3
  have e5 := Near.msub h hs (m := 6) (by omega) ha5 hb5 e4
  exact (Near.exact s).mul h e5 |>.congr rfl rfl rfl

set_option maxHeartbeats 1000000 in
private theorem cof4_near (h : Rounding fl u) {pd : ℝ → ℝ → ℝ → ℝ → ℝ} (hp : Fl.IsProdDiff fl pd) {madd msub : ℝ → ℝ → ℝ → ℝ} (ha : Fl.IsMulAdd fl madd)
    (hs : Fl.IsMulSub fl msub) (s : Matrix (Fin 4) (Fin 4) ℝ) (i j : Fin 4) :
    Near u 8 (Fl.cof4Stripes fl pd madd msub s i j) (Mathter.cof4Stripes s i j) (absPerm (s.submatrix j.succAbove i.succAbove)) := by
  have x : ∀ a : ℝ, Near u 0 a a |a| := fun a => Near.exact a
  have m : ∀ a b : ℝ, Near u 1 (fl (a * b)) (a * b) (|a| * |b|) := fun a b => (x a).mul h (x b)
  unfold absPerm
  rw [permanent_three]
  fin_cases j <;> fin_cases i
  all_goals first
    | refine (six_near (u := u) h hp ha hs (k := 0) (l := 1) rfl (x _) (m _ _) (x _) (m _ _) (x _) (m _ _) (x _) (m _ _) (x _) (m _ _) (x _) (m _ _)).congr rfl ?_ ?_
    | refine (six_near (u := u) h hp ha hs (k := 1) (l := 0) rfl (m _ _) (x _) (m _ _) (x _) (m _ _) (x _) (m _ _) (x _) (m _ _) (x _) (m _ _) (x _)).congr rfl ?_ ?_
  all_goals simp [Mathter.cof4Stripes, sw, Fin.succAbove]
  all_goals ring

/-- C103: the inverse of a 4×4 matrix. -/
theorem C103_inv4 (h : Rounding fl u) {pd : ℝ → ℝ → ℝ → ℝ → ℝ} (hp : Fl.IsProdDiff fl pd) {madd msub : ℝ → ℝ → ℝ → ℝ} (ha : Fl.IsMulAdd fl madd)
    (hs : Fl.IsMulSub fl msub) (c : Cfg) (p : Bool) (tb3 : RTree (batchSize 3 false)) (ts3 : RTree (3 + 1)) (htb3 : tb3.Valid) (hts3 : ts3.Valid)
    (tb4 : RTree (batchSize 4 false)) (ts4 : RTree (4 + 1)) (htb4 : tb4.Valid) (hts4 : ts4.Valid) (L : Layout) (A : Matrix (Fin 4) (Fin 4) ℝ)
    (hA : ((1 + u) ^ 11 - 1) * absPerm A < |A.det|) :
    ∃ X, Fl.inv4 c p fl pd madd msub tb3 ts3 tb4 ts4 L A = some X ∧ ∀ i j, |X i j - A⁻¹ i j| ≤
      inverseErr u ((1 + u) ^ 11 - 1) (absPerm (A.submatrix j.succAbove i.succAbove)) (absPerm A) A.det (A⁻¹ i j) := by
  have hd := (det4_near h hp ha c p tb3 ts3 htb3 hts3 tb4 ts4 htb4 hts4 (stripesOf L A)).congr rfl (det_stripes L A) (absPerm_stripesOf L A)
  have hdet : A.det ≠ 0 := fun h0 => by
    rw [h0, abs_zero] at hA
    linarith [mul_nonneg (by linarith [one_le h 11] : 0 ≤ (1 + u) ^ 11 - 1) hd.nonneg]
  have hi := (C30_inv4 L A).2 (stripesOf L (Matrix.of fun i j => Mathter.cof4Stripes (stripesOf L A) i j / A.det)) (by
    unfold Mathter.inv4 Mathter.inv4Stripes
    dsimp only
    rw [C28_det4 L A, if_neg hdet]; rfl)
  obtain ⟨h1, h2⟩ := elements h L A (Fl.cof4Stripes fl pd madd msub (stripesOf L A)) _ _ (fun i j => (cof4_near h hp ha hs _ i j).mono h (by norm_num)) hd hA hi.1
  exact ⟨_, by unfold Fl.inv4 Fl.inv4Stripes; dsimp only; rw [if_neg h1]; rfl, h2⟩

end Mathter.Props
