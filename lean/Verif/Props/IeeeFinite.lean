import Verif.Lemmas.IeeeFinite
import Verif.Props.IeeeLinear
import Verif.Props.RoundedLinear
import Verif.Props.RoundedDeterminant
import Mathlib.Tactic.NormNum

/-!
# Finite results are accurate (C124, C125)

The error bounds of C76, C82–C84, C102 and C103 suppose that nothing overflows. Here results may overflow anywhere on the way: `fl` rounds like `fl₀`
or returns an infinity, and the evaluation goes on with infinities and NaN. If the result that comes out is finite, the bounds hold.
-/

namespace Mathter.Props
open Mathter Fx
variable {c : Cfg} {dim r k n m : ℕ} {o : Order} {L L' : Layout} {p p1 p2 : Bool} {fl : ℝ → Fx} {fl₀ : ℝ → ℝ} {u : ℝ} {op : Fx → Fx → Fx → Fx}

/-! ## C124: reductions -/

/-- C124: a finite `Sum` is accurate, whatever overflowed in between. -/
theorem C124_sum (hf : Overflows fl fl₀) (h : Rounding fl₀ u) (tb : RTree (batchSize dim false)) (ts : RTree (dim + 1)) (htb : tb.Valid) (hts : ts.Valid)
    (v : Vec c Fx dim p) (x : Fin dim → ℝ) (hv : ∀ i, v.get i = .fin (x i)) (hx : ∀ i, fl (x i) = .fin (x i)) (z : ℝ) (hz : Ie.sum fl tb ts v = .fin z) :
    |z - ∑ i, x i| ≤ ((1 + u) ^ (dim - 1) - 1) * ∑ i, |x i| := by
  have e := Ie.sum_tracks hf tb ts (v := v) (w := (Vec.ofFn x : Vec c ℝ dim p)) (fun i => by rw [hv, Vec.get_ofFn]; exact tracks_fin _) z hz
  have := C76_sum h tb ts htb hts (Vec.ofFn x : Vec c ℝ dim p) (fun i => by rw [Vec.get_ofFn]; exact hf.fix (hx i))
  simp only [Vec.get_ofFn] at this
  rwa [e]

/-- C124: so is a finite `Dot`, ... -/
theorem C124_dot (hf : Overflows fl fl₀) (h : Rounding fl₀ u) (conv : Bool) (tb : RTree (batchSize dim false)) (ts : RTree (dim + 1)) (htb : tb.Valid)
    (hts : ts.Valid) (a : Vec c Fx dim p1) (b : Vec c Fx dim p2) (x y : Fin dim → ℝ) (ha : ∀ i, a.get i = .fin (x i)) (hb : ∀ i, b.get i = .fin (y i))
    (z : ℝ) (hz : Ie.dot fl conv tb ts a b = .fin z) : |z - ∑ i, x i * y i| ≤ ((1 + u) ^ dim - 1) * ∑ i, |x i * y i| := by
  have e := Ie.dot_tracks hf conv tb ts (a := a) (b := b) (a₀ := Vec.ofFn x) (b₀ := Vec.ofFn y) (fun i => by rw [ha, Vec.get_ofFn]; exact tracks_fin _)
    (fun i => by rw [hb, Vec.get_ofFn]; exact tracks_fin _) z hz
  have := C76_dot h conv tb ts htb hts (Vec.ofFn x : Vec c ℝ dim p1) (Vec.ofFn y : Vec c ℝ dim p2)
  simp only [Vec.get_ofFn] at this
  rwa [e]

/-- C124: ... a finite `Length`, ... -/
theorem C124_length (hf : Overflows fl fl₀) (h : Rounding fl₀ u) (conv : Bool) (tb : RTree (batchSize dim false)) (ts : RTree (dim + 1)) (htb : tb.Valid)
    (hts : ts.Valid) (v : Vec c Fx dim p) (x : Fin dim → ℝ) (hv : ∀ i, v.get i = .fin (x i)) (z : ℝ) (hz : Ie.length fl conv tb ts v = .fin z) :
    |z - Real.sqrt (∑ i, x i ^ 2)| ≤ ((1 + u) ^ (dim + 1) - 1) * Real.sqrt (∑ i, x i ^ 2) := by
  have hv' : ∀ i, Tracks (v.get i) ((Vec.ofFn x : Vec c ℝ dim p).get i) := fun i => by rw [hv, Vec.get_ofFn]; exact tracks_fin _
  have e := (Ie.dot_tracks hf conv tb ts hv' hv').sqrt hf z hz
  have := C76_length h conv tb ts htb hts (Vec.ofFn x : Vec c ℝ dim p)
  simp only [Vec.get_ofFn] at this
  rwa [e]

/-- C124: ... and a finite `Distance`. -/
theorem C124_distance (hf : Overflows fl fl₀) (h : Rounding fl₀ u) (conv : Bool) (tb : RTree (batchSize dim false)) (ts : RTree (dim + 1)) (htb : tb.Valid)
    (hts : ts.Valid) (a : Vec c Fx dim p1) (b : Vec c Fx dim p2) (x y : Fin dim → ℝ) (ha : ∀ i, a.get i = .fin (x i)) (hb : ∀ i, b.get i = .fin (y i))
    (z : ℝ) (hz : Ie.distance fl conv tb ts a b = .fin z) :
    |z - Real.sqrt (∑ i, (x i - y i) ^ 2)| ≤ ((1 + u) ^ (dim + 2) - 1) * Real.sqrt (∑ i, (x i - y i) ^ 2) := by
  have hv' : ∀ i, Tracks ((Vec.doBinary conv (Fx.sub fl) a b : Vec c Fx dim (p1 && p2)).get i)
      ((Fl.sub fl₀ conv (Vec.ofFn x : Vec c ℝ dim p1) (Vec.ofFn y : Vec c ℝ dim p2)).get i) := fun i => by
    simp only [Fl.sub, Vec.get_doBinary, Vec.get_ofFn, ha, hb]
    exact (tracks_fin _).sub hf (tracks_fin _)
  have e := (Ie.dot_tracks hf conv tb ts hv' hv').sqrt hf z hz
  have := C76_distance h conv tb ts htb hts (Vec.ofFn x : Vec c ℝ dim p1) (Vec.ofFn y : Vec c ℝ dim p2)
  simp only [Vec.get_ofFn] at this
  rwa [e]

/-! ## C124: products -/

private theorem accum_tracks [NeZero k] (hf : Overflows fl fl₀) {op₀ : ℝ → ℝ → ℝ → ℝ}
    (hl : ∀ a b d x y z, Tracks a x → Tracks b y → Tracks d z → Tracks (op a b d) (op₀ x y z)) {x y : Fin k → Fx} {x₀ y₀ : Fin k → ℝ}
    (hx : ∀ q, x q = .fin (x₀ q)) (hy : ∀ q, y q = .fin (y₀ q)) :
    Tracks (forUp k 1 (fun q s => op (x q) (y q) s) (Fx.mul fl (x 0) (y 0))) (accum fl₀ op₀ x₀ y₀) := by
  unfold accum
  refine forUp_rel (n := k) (lo := 1) (body := fun q s => op (x q) (y q) s) (body' := fun q s => op₀ (x₀ q) (y₀ q) s) (fun s t => Tracks s t) ?_ ?_
  · rw [hx, hy]; exact (tracks_fin _).mul hf (tracks_fin _)
  · intro q s t hs
    rw [hx, hy]
    exact hl _ _ _ _ _ _ (tracks_fin _) (tracks_fin _) hs

/-- C124: a finite element of a matrix product is accurate, for every pair of layouts, fused or not. -/
theorem C124_mul [NeZero k] (hf : Overflows fl fl₀) (h : Rounding fl₀ u) (hop : Fx.IsMulAdd fl op) (conv : Bool)
    (tb : RTree (batchSize k false)) (ts : RTree (k + 1)) (htb : tb.Valid) (hts : ts.Valid) (m0 : Mat c Fx r n o L (p1 && p2)) (a : Mat c Fx r k o L p1)
    (b : Mat c Fx k n o L' p2) (x : Matrix (Fin r) (Fin k) ℝ) (y : Matrix (Fin k) (Fin n) ℝ) (ha : ∀ i q, a.get i q = .fin (x i q))
    (hb : ∀ q j, b.get q j = .fin (y q j)) (i : Fin r) (j : Fin n) (z : ℝ) (hz : (Ie.matMul fl op conv tb ts m0 a b).get i j = .fin z) :
    |z - (x * y) i j| ≤ ((1 + u) ^ k - 1) * ∑ q, |x i q * y q j| := by
  obtain ⟨op₀, h₀, hl⟩ := hop.real hf
  rw [Matrix.mul_apply]
  have acc : ∀ w, forUp k 1 (fun q s => op (a.get i q) (b.get q j) s) (Fx.mul fl (a.get i 0) (b.get 0 j)) = .fin w →
      |w - ∑ q, x i q * y q j| ≤ ((1 + u) ^ k - 1) * ∑ q, |x i q * y q j| := fun w hw => by
    have e := accum_tracks hf hl (x := fun q => a.get i q) (y := fun q => b.get q j) (fun q => ha i q) (fun q => hb q j) w hw
    have := accum_err h h₀ (fun q => x i q) (fun q => y q j)
    rwa [e]
  cases L
  · cases L'
    · simp only [Ie.matMul] at hz; rw [ieMulRR_get] at hz; exact acc z hz
    · simp only [Ie.matMul, Ie.mulRC, Mat.get_fillLoop] at hz
      exact C124_dot hf h conv tb ts htb hts (a.stripes i) (b.stripes j) (fun q => x i q) (fun q => y q j) (fun q => ha i q) (fun q => hb q j) z hz
  · simp only [Ie.matMul] at hz; rw [ieMulC_get] at hz; exact acc z hz

/-- C124: so it is for vector × matrix ... -/
theorem C124_vec_mul [NeZero k] (hf : Overflows fl fl₀) (h : Rounding fl₀ u) (hop : Fx.IsMulAdd fl op) (conv : Bool)
    (tb : RTree (batchSize k false)) (ts : RTree (k + 1)) (htb : tb.Valid) (hts : ts.Valid) (v0 : Vec c Fx n (p1 && p2)) (v : Vec c Fx k p1)
    (a : Mat c Fx k n .follow L p2) (x : Fin k → ℝ) (y : Matrix (Fin k) (Fin n) ℝ) (hv : ∀ q, v.get q = .fin (x q)) (ha : ∀ q j, a.get q j = .fin (y q j))
    (j : Fin n) (z : ℝ) (hz : Ie.vecMul fl op conv tb ts v0 v a j = .fin z) :
    |z - Matrix.vecMul x y j| ≤ ((1 + u) ^ k - 1) * ∑ q, |x q * y q j| := by
  obtain ⟨op₀, h₀, hl⟩ := hop.real hf
  change |z - ∑ q, x q * y q j| ≤ _
  cases L
  · simp only [Ie.vecMul] at hz; rw [ieVecMulR_get] at hz
    have e := accum_tracks hf hl (x := fun q => v.get q) (y := fun q => a.get q j) hv (fun q => ha q j) z hz
    have := accum_err h h₀ x (fun q => y q j)
    rwa [e]
  · simp only [Ie.vecMul, Ie.vecMulC, Vec.get_setLoop] at hz
    exact C124_dot hf h conv tb ts htb hts v (a.stripes j) x (fun q => y q j) hv (fun q => ha q j) z hz

/-- C124: ... and for matrix × vector. -/
theorem C124_mul_vec [NeZero k] (hf : Overflows fl fl₀) (h : Rounding fl₀ u) (hop : Fx.IsMulAdd fl op) (conv : Bool)
    (tb : RTree (batchSize k false)) (ts : RTree (k + 1)) (htb : tb.Valid) (hts : ts.Valid) (v0 : Vec c Fx n (p2 && p1)) (f0 : Mat c Fx k n .follow L.flip p1)
    (a : Mat c Fx n k .precede L p1) (v : Vec c Fx k p2) (y : Matrix (Fin n) (Fin k) ℝ) (x : Fin k → ℝ) (ha : ∀ i q, a.get i q = .fin (y i q))
    (hv : ∀ q, v.get q = .fin (x q)) (i : Fin n) (z : ℝ) (hz : Ie.mulVec fl op conv tb ts v0 f0 a v i = .fin z) :
    |z - Matrix.mulVec y x i| ≤ ((1 + u) ^ k - 1) * ∑ q, |y i q * x q| := by
  have e : ∀ q i, (Mat.flipLayoutAndOrder (o := .precede) f0 a).get q i = a.get i q := fun q i => congrFun (congrFun (C21_convert_order (o := .precede) f0 a) q) i
  have := C124_vec_mul hf h hop conv tb ts htb hts v0 v _ x (fun q i => y i q) hv (fun q i => by rw [e, ha]) i z hz
  have e1 : Matrix.vecMul x (fun q i => y i q) i = Matrix.mulVec y x i := by
    simp only [Matrix.vecMul, Matrix.mulVec, dotProduct]
    exact Finset.sum_congr rfl fun q _ => mul_comm _ _
  rw [e1] at this
  simpa only [mul_comm] using this

/-! ## C124: determinants -/

section
variable {pd : Fx → Fx → Fx → Fx → Fx} {madd msub : Fx → Fx → Fx → Fx}

/-- C124: a finite determinant of a 2×2 matrix is accurate, ... -/
theorem C124_det2 (hf : Overflows fl fl₀) (h : Rounding fl₀ u) (hpd : Fx.IsProdDiff fl pd) (A : Matrix (Fin 2) (Fin 2) ℝ) (z : ℝ)
    (hz : Ie.det2 pd (A.map Fx.fin) = .fin z) : |z - A.det| ≤ ((1 + u) ^ 2 - 1) * absPerm A := by
  obtain ⟨pd₀, h₀, hl⟩ := hpd.real hf
  have e := hl _ _ _ _ _ _ _ _ (tracks_fin (A 0 0)) (tracks_fin (A 1 1)) (tracks_fin (A 1 0)) (tracks_fin (A 0 1)) z hz
  rw [e]
  exact C102_det2 h h₀ A

private theorem stripes_tracks (L : Layout) (A : Matrix (Fin n) (Fin n) ℝ) (i j : Fin n) : Tracks (stripesOf L (A.map Fx.fin) i j) (stripesOf L A i j) := by
  cases L <;> exact tracks_fin _

/-- C124: ... of a 3×3 matrix, ... -/
theorem C124_det3 (hf : Overflows fl fl₀) (h : Rounding fl₀ u) (hpd : Fx.IsProdDiff fl pd) (c : Cfg) (p : Bool) (tb : RTree (batchSize 3 false))
    (ts : RTree (3 + 1)) (htb : tb.Valid) (hts : ts.Valid) (L : Layout) (A : Matrix (Fin 3) (Fin 3) ℝ) (z : ℝ)
    (hz : Ie.det3Stripes c p fl pd tb ts (stripesOf L (A.map Fx.fin)) = .fin z) : |z - A.det| ≤ ((1 + u) ^ 5 - 1) * absPerm A := by
  obtain ⟨pd₀, h₀, hl⟩ := hpd.real hf
  rw [Ie.det3_tracks hf hl tb ts (stripes_tracks L A) z hz]
  exact C102_det3 h h₀ c p tb ts htb hts L A

/-- C124: ... and of a 4×4 matrix. -/
theorem C124_det4 (hf : Overflows fl fl₀) (h : Rounding fl₀ u) (hpd : Fx.IsProdDiff fl pd) (hadd : Fx.IsMulAdd fl madd) (c : Cfg) (p : Bool)
    (tb3 : RTree (batchSize 3 false)) (ts3 : RTree (3 + 1)) (htb3 : tb3.Valid) (hts3 : ts3.Valid)
    (tb4 : RTree (batchSize 4 false)) (ts4 : RTree (4 + 1)) (htb4 : tb4.Valid) (hts4 : ts4.Valid) (L : Layout) (A : Matrix (Fin 4) (Fin 4) ℝ) (z : ℝ)
    (hz : Ie.det4Stripes c p fl pd madd tb3 ts3 tb4 ts4 (stripesOf L (A.map Fx.fin)) = .fin z) : |z - A.det| ≤ ((1 + u) ^ 11 - 1) * absPerm A := by
  obtain ⟨pd₀, h₀, hl⟩ := hpd.real hf
  obtain ⟨madd₀, ha₀, hla⟩ := hadd.real hf
  rw [Ie.det4_tracks hf hl hla tb3 ts3 tb4 ts4 (stripes_tracks L A) z hz]
  exact C102_det4 h h₀ ha₀ c p tb3 ts3 htb3 hts3 tb4 ts4 htb4 hts4 L A

end

/-! ## C124: triangular systems and decompositions -/

private theorem float_of_fix {q : ℕ} (hf : Overflows fl fl₀) (h : RoundsToNearest q fl₀) {x : ℝ} (hx : fl x = .fin x) : IsFloat q x :=
  hf.fix hx ▸ h.mem x

private theorem not_nf {x : Fx} {z : ℝ} (h : x = .fin z) : ¬NF x := fun hn => hn z h

/-- C124: if every unknown in a column of the solution of an upper triangular system is finite, no divisor was zero and the column solves a system
with a slightly different matrix, ... -/
theorem C124_upper {q : ℕ} (hq : 1 ≤ q) (hf : Overflows fl fl₀) (h : RoundsToNearest q fl₀) (f0 : fl 0 = .fin 0) (f1 : fl 1 = .fin 1) (hop : Fx.IsMulSub fl op)
    (A : Matrix (Fin n) (Fin n) ℝ) (b : Matrix (Fin n) (Fin m) ℝ) (hA : ∀ i j, fl (A i j) = .fin (A i j)) (ht : ∀ i j, j < i → A i j = 0) (j : Fin m)
    (x : Fin n → ℝ) (hx : ∀ i, Ie.solveUpper fl op (A.map Fx.fin) (b.map Fx.fin) i j = .fin (x i)) :
    (∀ i, A i i ≠ 0) ∧ ∃ D : Matrix (Fin n) (Fin n) ℝ, (∀ i t, |D i t| ≤ roundoff q n * |A i t|) ∧ (A + D).mulVec x = fun i => b i j := by
  obtain ⟨op₀, h₀, hl⟩ := hop.real hf
  obtain ⟨hd, X, hX, e⟩ := Ie.solveUpper_finite hf hop h₀ hl f0 f1 hA ht (b := b.map Fx.fin) (b₀ := b) (fun _ _ => tracks_fin _) j (fun i => not_nf (hx i))
  obtain ⟨X', hX', hD⟩ := C83_upper hq h h₀ A b (fun i j => float_of_fix hf h (hA i j)) ht hd
  cases hX.symm.trans hX'
  obtain ⟨D, h1, h2⟩ := hD j
  exact ⟨hd, D, h1, by rw [← h2]; congr 1; funext i; exact e i j _ (hx i)⟩

/-- C124: ... likewise for a lower triangular system, ... -/
theorem C124_lower {q : ℕ} (hq : 1 ≤ q) (hf : Overflows fl fl₀) (h : RoundsToNearest q fl₀) (f0 : fl 0 = .fin 0) (f1 : fl 1 = .fin 1) (hop : Fx.IsMulSub fl op)
    (A : Matrix (Fin n) (Fin n) ℝ) (b : Matrix (Fin n) (Fin m) ℝ) (hA : ∀ i j, fl (A i j) = .fin (A i j)) (ht : ∀ i j, i < j → A i j = 0) (j : Fin m)
    (x : Fin n → ℝ) (hx : ∀ i, Ie.solveLower fl op (A.map Fx.fin) (b.map Fx.fin) i j = .fin (x i)) :
    (∀ i, A i i ≠ 0) ∧ ∃ D : Matrix (Fin n) (Fin n) ℝ, (∀ i t, |D i t| ≤ roundoff q n * |A i t|) ∧ (A + D).mulVec x = fun i => b i j := by
  obtain ⟨op₀, h₀, hl⟩ := hop.real hf
  obtain ⟨hd, X, hX, e⟩ := Ie.solveLower_finite hf hop h₀ hl f0 f1 hA ht (b := b.map Fx.fin) (b₀ := b) (fun _ _ => tracks_fin _) j (fun i => not_nf (hx i))
  obtain ⟨X', hX', hD⟩ := C83_lower hq h h₀ A b (fun i j => float_of_fix hf h (hA i j)) ht hd
  cases hX.symm.trans hX'
  obtain ⟨D, h1, h2⟩ := hD j
  exact ⟨hd, D, h1, by rw [← h2]; congr 1; funext i; exact e i j _ (hx i)⟩

/-- C124: ... and for both with the unknowns in rows. -/
theorem C124_follow {q : ℕ} (hq : 1 ≤ q) (hf : Overflows fl fl₀) (h : RoundsToNearest q fl₀) (f0 : fl 0 = .fin 0) (f1 : fl 1 = .fin 1) (hop : Fx.IsMulSub fl op)
    (A : Matrix (Fin n) (Fin n) ℝ) (b : Matrix (Fin m) (Fin n) ℝ) (hA : ∀ i j, fl (A i j) = .fin (A i j)) (j : Fin m) (x : Fin n → ℝ)
    (hx : ((∀ i j, j < i → A i j = 0) ∧ ∀ i, Ie.solveUpperFollow fl op (A.map Fx.fin) (b.map Fx.fin) j i = .fin (x i)) ∨
      ((∀ i j, i < j → A i j = 0) ∧ ∀ i, Ie.solveLowerFollow fl op (A.map Fx.fin) (b.map Fx.fin) j i = .fin (x i))) :
    (∀ i, A i i ≠ 0) ∧ ∃ D : Matrix (Fin n) (Fin n) ℝ, (∀ i t, |D i t| ≤ roundoff q n * |A i t|) ∧ Matrix.vecMul x (A + D) = b j := by
  have key : (∀ i, A.transpose i i ≠ 0) ∧ ∃ D : Matrix (Fin n) (Fin n) ℝ, (∀ i t, |D i t| ≤ roundoff q n * |A.transpose i t|) ∧
      (A.transpose + D).mulVec x = fun i => b.transpose i j := by
    rcases hx with ⟨ht, hx⟩ | ⟨ht, hx⟩
    · exact C124_lower hq hf h f0 f1 hop A.transpose b.transpose (fun i j => hA j i) (fun i j hij => ht j i hij) j x hx
    · exact C124_upper hq hf h f0 f1 hop A.transpose b.transpose (fun i j => hA j i) (fun i j hij => ht j i hij) j x hx
  obtain ⟨h1, D, h2, h3⟩ := key
  refine ⟨h1, D.transpose, fun i t => h2 t i, ?_⟩
  rw [← Matrix.mulVec_transpose, Matrix.transpose_add, Matrix.transpose_transpose, h3]
  rfl

private theorem lu_ok (hf : Overflows fl fl₀) (hop : Fx.IsMulSub fl op) {op₀ : ℝ → ℝ → ℝ → ℝ}
    (hl : ∀ a b d x y z, Tracks a x → Tracks b y → Tracks d z → Tracks (op a b d) (op₀ x y z))
    {A L U : Matrix (Fin (n + 1)) (Fin (n + 1)) ℝ}
    (hL : (Ie.decomposeLU fl op (A.map Fx.fin)).L = L.map Fx.fin) (hU : (Ie.decomposeLU fl op (A.map Fx.fin)).U = U.map Fx.fin) :
    Fl.decomposeLU fl₀ op₀ A = some ⟨L, U⟩ := by
  obtain ⟨⟨L', U'⟩, hd, e1, e2⟩ := Ie.decomposeLU_finite hf hop hl A (by
    rw [hL, hU]
    rintro (⟨i, j, hn⟩ | ⟨i, j, -, -, hn⟩)
    · exact hn _ rfl
    · exact hn _ rfl)
  rw [hd]
  have i1 : L' = L := by
    ext i j
    have := congrFun (congrFun (e1.symm.trans hL) i) j
    exact Fx.fin.inj this
  have i2 : U' = U := by
    ext i j
    have := congrFun (congrFun (e2.symm.trans hU) i) j
    exact Fx.fin.inj this
  rw [i1, i2]

private theorem lup_ok (hf : Overflows fl fl₀) (hop : Fx.IsMulSub fl op) {op₀ : ℝ → ℝ → ℝ → ℝ}
    (hl : ∀ a b d x y z, Tracks a x → Tracks b y → Tracks d z → Tracks (op a b d) (op₀ x y z))
    {A L U : Matrix (Fin (n + 1)) (Fin (n + 1)) ℝ}
    (hL : (Ie.decomposeLUP fl op (A.map Fx.fin)).L = L.map Fx.fin) (hU : (Ie.decomposeLUP fl op (A.map Fx.fin)).U = U.map Fx.fin) :
    Fl.decomposeLUP fl₀ op₀ A = ⟨L, U, (Ie.decomposeLUP fl op (A.map Fx.fin)).P⟩ := by
  have e := Ie.decomposeLUP_finite hf hop hl A (by
    rw [hL, hU]
    rintro (⟨i, j, hn⟩ | ⟨i, j, -, -, hn⟩)
    · exact hn _ rfl
    · exact hn _ rfl)
  rw [e] at hL hU ⊢
  generalize Fl.decomposeLUP fl₀ op₀ A = d at *
  obtain ⟨L', U', P'⟩ := d
  have i1 : L' = L := by ext i j; exact Fx.fin.inj (congrFun (congrFun hL i) j)
  have i2 : U' = U := by ext i j; exact Fx.fin.inj (congrFun (congrFun hU i) j)
  rw [i1, i2]

/-- C124: if the factors of `DecomposeLU` are finite, they are triangular and their product is close to the matrix, ... -/
theorem C124_lu {q : ℕ} (hq : 1 ≤ q) (hf : Overflows fl fl₀) (h : RoundsToNearest q fl₀) (hop : Fx.IsMulSub fl op)
    (A L U : Matrix (Fin (n + 1)) (Fin (n + 1)) ℝ) (hA : ∀ i j, fl (A i j) = .fin (A i j))
    (hL : (Ie.decomposeLU fl op (A.map Fx.fin)).L = L.map Fx.fin) (hU : (Ie.decomposeLU fl op (A.map Fx.fin)).U = U.map Fx.fin) :
    (∀ i, L i i = 1) ∧ (∀ i j, i < j → L i j = 0) ∧ (∀ i j, j < i → U i j = 0) ∧
    ∀ i j, |(L * U) i j - A i j| ≤ roundoff q n * ∑ t, |L i t| * |U t j| := by
  obtain ⟨op₀, h₀, hl⟩ := hop.real hf
  exact C84_lu hq h h₀ A (fun i j => float_of_fix hf h (hA i j)) ⟨L, U⟩ (lu_ok hf hop hl hL hU)

/-- C124: ... and so it is for `DecomposeLUP`, with multipliers of at most 1. -/
theorem C124_lup {q : ℕ} (hq : 1 ≤ q) (hf : Overflows fl fl₀) (h : RoundsToNearest q fl₀) (hop : Fx.IsMulSub fl op)
    (A L U : Matrix (Fin (n + 1)) (Fin (n + 1)) ℝ) (hA : ∀ i j, fl (A i j) = .fin (A i j))
    (hL : (Ie.decomposeLUP fl op (A.map Fx.fin)).L = L.map Fx.fin) (hU : (Ie.decomposeLUP fl op (A.map Fx.fin)).U = U.map Fx.fin) :
    Function.Bijective (Ie.decomposeLUP fl op (A.map Fx.fin)).P ∧ (∀ i, L i i = 1) ∧ (∀ i j, i < j → L i j = 0) ∧ (∀ i j, |L i j| ≤ 1) ∧
    (∀ i j, j < i → U i j = 0) ∧ ∀ i j, |(L * U) i j - A ((Ie.decomposeLUP fl op (A.map Fx.fin)).P i) j| ≤ roundoff q n * ∑ t, |L i t| * |U t j| := by
  obtain ⟨op₀, h₀, hl⟩ := hop.real hf
  have := C84_lup hq h h₀ A (fun i j => float_of_fix hf h (hA i j))
  rw [lup_ok hf hop hl hL hU] at this
  exact this

/-! ## C125: solutions and inverses -/

private theorem solve_link (hf : Overflows fl fl₀) (f0 : fl 0 = .fin 0) (f1 : fl 1 = .fin 1) (hop : Fx.IsMulSub fl op)
    {op₀ : ℝ → ℝ → ℝ → ℝ} (h₀ : Fl.IsMulSub fl₀ op₀) (hl : ∀ a b d x y z, Tracks a x → Tracks b y → Tracks d z → Tracks (op a b d) (op₀ x y z))
    {L U : Matrix (Fin n) (Fin n) ℝ} (hLf : ∀ i j, fl (L i j) = .fin (L i j)) (hUf : ∀ i j, fl (U i j) = .fin (U i j))
    (tL : ∀ i j, i < j → L i j = 0) (tU : ∀ i j, j < i → U i j = 0) (b : Matrix (Fin n) (Fin m) ℝ) (j : Fin m) (x : Fin n → ℝ)
    (hx : ∀ i, Ie.luSolve fl op (L.map Fx.fin) (U.map Fx.fin) (b.map Fx.fin) i j = .fin (x i)) :
    (∀ i, U i i ≠ 0) ∧ ∃ X, Fl.luSolve fl₀ op₀ L U b = some X ∧ ∀ i, X i j = x i := by
  have hy : ∀ i, ¬NF (Ie.solveLower fl op (L.map Fx.fin) (b.map Fx.fin) i j) := fun i hn =>
    not_nf (hx i) (Ie.solveUpper_nf hop (U.map Fx.fin) _ hn)
  obtain ⟨-, Y, hY, eY⟩ := Ie.solveLower_finite hf hop h₀ hl f0 f1 hLf tL (b := b.map Fx.fin) (b₀ := b) (fun _ _ => tracks_fin _) j hy
  obtain ⟨hd, X, hX, eX⟩ := Ie.solveUpper_finite hf hop h₀ hl f0 f1 hUf tU (b := Ie.solveLower fl op (L.map Fx.fin) (b.map Fx.fin)) (b₀ := Y) eY j
    (fun i => not_nf (hx i))
  exact ⟨hd, X, by unfold Fl.luSolve; rw [hY]; exact hX, fun i => (eX i j _ (hx i)).symm⟩

private theorem solve_link_follow (hf : Overflows fl fl₀) (f0 : fl 0 = .fin 0) (f1 : fl 1 = .fin 1) (hop : Fx.IsMulSub fl op)
    {op₀ : ℝ → ℝ → ℝ → ℝ} (h₀ : Fl.IsMulSub fl₀ op₀) (hl : ∀ a b d x y z, Tracks a x → Tracks b y → Tracks d z → Tracks (op a b d) (op₀ x y z))
    {L U : Matrix (Fin n) (Fin n) ℝ} (hLf : ∀ i j, fl (L i j) = .fin (L i j)) (hUf : ∀ i j, fl (U i j) = .fin (U i j))
    (tL : ∀ i j, i < j → L i j = 0) (tU : ∀ i j, j < i → U i j = 0) (b : Matrix (Fin m) (Fin n) ℝ) (j : Fin m) (x : Fin n → ℝ)
    (hx : ∀ i, Ie.luSolveFollow fl op (L.map Fx.fin) (U.map Fx.fin) (b.map Fx.fin) j i = .fin (x i)) :
    (∀ i, U i i ≠ 0) ∧ ∃ X, Fl.luSolveFollow fl₀ op₀ L U b = some X ∧ ∀ i, X j i = x i := by
  have hy : ∀ i, ¬NF (Ie.solveLower fl op (U.transpose.map Fx.fin) (b.transpose.map Fx.fin) i j) := fun i hn =>
    not_nf (hx i) (Ie.solveUpper_nf hop (L.transpose.map Fx.fin) _ hn)
  obtain ⟨hd, Y, hY, eY⟩ := Ie.solveLower_finite hf hop h₀ hl f0 f1 (A := U.transpose) (fun i j => hUf j i) (fun i j hij => tU j i hij)
    (b := b.transpose.map Fx.fin) (b₀ := b.transpose) (fun _ _ => tracks_fin _) j hy
  obtain ⟨-, X, hX, eX⟩ := Ie.solveUpper_finite hf hop h₀ hl f0 f1 (A := L.transpose) (fun i j => hLf j i) (fun i j hij => tL j i hij)
    (b := Ie.solveLower fl op (U.transpose.map Fx.fin) (b.transpose.map Fx.fin)) (b₀ := Y) eY j (fun i => not_nf (hx i))
  refine ⟨hd, X.transpose, ?_, fun i => (eX i j _ (hx i)).symm⟩
  unfold Fl.luSolveFollow Fl.solveUpperFollow Fl.solveLowerFollow
  rw [hY, Option.map_some, Option.bind_some, Matrix.transpose_transpose, hX]
  rfl

/-- C125: if the factors of `DecomposeLU` and a column of the solution are finite, the column solves a system with a slightly different matrix. Not
covered: solutions that are finite although the factors are not (see `C125_solve_violated`). -/
theorem C125_lu_solve_partial {q : ℕ} (hq : 1 ≤ q) (hf : Overflows fl fl₀) (h : RoundsToNearest q fl₀) (f0 : fl 0 = .fin 0) (f1 : fl 1 = .fin 1)
    (hop : Fx.IsMulSub fl op) (A L U : Matrix (Fin (n + 1)) (Fin (n + 1)) ℝ) (hA : ∀ i j, fl (A i j) = .fin (A i j))
    (hL : (Ie.decomposeLU fl op (A.map Fx.fin)).L = L.map Fx.fin) (hU : (Ie.decomposeLU fl op (A.map Fx.fin)).U = U.map Fx.fin)
    (b : Matrix (Fin (n + 1)) (Fin m) ℝ) (j : Fin m) (x : Fin (n + 1) → ℝ)
    (hx : ∀ i, Ie.luSolve fl op (Ie.decomposeLU fl op (A.map Fx.fin)).L (Ie.decomposeLU fl op (A.map Fx.fin)).U (b.map Fx.fin) i j = .fin (x i)) :
    (∀ i, U i i ≠ 0) ∧ ∃ D : Matrix (Fin (n + 1)) (Fin (n + 1)) ℝ, (∀ i t, |D i t| ≤ roundoff q (3 * n + 2) * ∑ w, |L i w| * |U w t|) ∧
      (A + D).mulVec x = fun i => b i j := by
  obtain ⟨op₀, h₀, hl⟩ := hop.real hf
  obtain ⟨-, t1, t2, -⟩ := C124_lu hq hf h hop A L U hA hL hU
  have hrep := Ie.decomposeLU_rep hf hop f0 f1 (A := A.map Fx.fin) (fun i j z e => by cases e; exact hA i j)
  rw [hL, hU] at hrep hx
  obtain ⟨hd, X, hX, e⟩ := solve_link hf f0 f1 hop h₀ hl (fun i j => hrep.1 i j _ rfl) (fun i j => hrep.2 i j _ rfl) t1 t2 b j x hx
  obtain ⟨X', hX', hD⟩ := C84_lu_solve hq h h₀ A (fun i j => float_of_fix hf h (hA i j)) ⟨L, U⟩ (lu_ok hf hop hl hL hU) hd b
  cases hX.symm.trans hX'
  obtain ⟨D, h1, h2⟩ := hD j
  exact ⟨hd, D, h1, by rw [← h2]; congr 1; funext i; exact (e i).symm⟩

/-- C125: so it is for `DecomposeLUP`, ... -/
theorem C125_lup_solve_partial {q : ℕ} (hq : 1 ≤ q) (hf : Overflows fl fl₀) (h : RoundsToNearest q fl₀) (f0 : fl 0 = .fin 0) (f1 : fl 1 = .fin 1)
    (hop : Fx.IsMulSub fl op) (A L U : Matrix (Fin (n + 1)) (Fin (n + 1)) ℝ) (hA : ∀ i j, fl (A i j) = .fin (A i j))
    (hL : (Ie.decomposeLUP fl op (A.map Fx.fin)).L = L.map Fx.fin) (hU : (Ie.decomposeLUP fl op (A.map Fx.fin)).U = U.map Fx.fin)
    (b0 : Matrix (Fin (n + 1)) (Fin m) Fx) (b : Matrix (Fin (n + 1)) (Fin m) ℝ) (j : Fin m) (x : Fin (n + 1) → ℝ)
    (hx : ∀ i, Ie.lupSolve fl op (Ie.decomposeLUP fl op (A.map Fx.fin)) b0 (b.map Fx.fin) i j = .fin (x i)) :
    (∀ i, U i i ≠ 0) ∧ ∃ D : Matrix (Fin (n + 1)) (Fin (n + 1)) ℝ,
      (∀ i t, |D ((Ie.decomposeLUP fl op (A.map Fx.fin)).P i) t| ≤ roundoff q (3 * n + 2) * ∑ w, |L i w| * |U w t|) ∧
      (A + D).mulVec x = fun i => b i j := by
  obtain ⟨op₀, h₀, hl⟩ := hop.real hf
  obtain ⟨-, -, t1, -, t2, -⟩ := C124_lup hq hf h hop A L U hA hL hU
  have hrep := Ie.decomposeLUP_rep hf hop f0 f1 (A := A.map Fx.fin) (fun i j z e => by cases e; exact hA i j)
  have hok := lup_ok hf hop hl hL hU
  unfold Ie.lupSolve at hx
  rw [hL, hU] at hrep hx
  have ep : permuteRows (Ie.decomposeLUP fl op (A.map Fx.fin)).P b0 (b.map Fx.fin)
      = (permuteRows (Ie.decomposeLUP fl op (A.map Fx.fin)).P b b).map Fx.fin := by
    rw [permuteRows_eq, permuteRows_eq]; rfl
  rw [ep] at hx
  obtain ⟨hd, X, hX, e⟩ := solve_link hf f0 f1 hop h₀ hl (fun i j => hrep.1 i j _ rfl) (fun i j => hrep.2 i j _ rfl) t1 t2 _ j x hx
  have := C84_lup_solve hq h h₀ A (fun i j => float_of_fix hf h (hA i j)) (by rw [hok]; exact hd) b b
  rw [hok] at this
  obtain ⟨X', hX', hD⟩ := this
  cases hX.symm.trans hX'
  obtain ⟨D, h1, h2⟩ := hD j
  exact ⟨hd, D, h1, by rw [← h2]; congr 1; funext i; exact (e i).symm⟩

/-- C125: ... also with the unknowns in rows, ... -/
theorem C125_lup_solve_follow_partial {q : ℕ} (hq : 1 ≤ q) (hf : Overflows fl fl₀) (h : RoundsToNearest q fl₀) (f0 : fl 0 = .fin 0) (f1 : fl 1 = .fin 1)
    (hop : Fx.IsMulSub fl op) (A L U : Matrix (Fin (n + 1)) (Fin (n + 1)) ℝ) (hA : ∀ i j, fl (A i j) = .fin (A i j))
    (hL : (Ie.decomposeLUP fl op (A.map Fx.fin)).L = L.map Fx.fin) (hU : (Ie.decomposeLUP fl op (A.map Fx.fin)).U = U.map Fx.fin)
    (b0 : Matrix (Fin m) (Fin (n + 1)) Fx) (b : Matrix (Fin m) (Fin (n + 1)) ℝ) (j : Fin m) (x : Fin (n + 1) → ℝ)
    (hx : ∀ i, Ie.lupSolveFollow fl op (Ie.decomposeLUP fl op (A.map Fx.fin)) b0 (b.map Fx.fin) j i = .fin (x i)) :
    (∀ i, U i i ≠ 0) ∧ ∃ D : Matrix (Fin (n + 1)) (Fin (n + 1)) ℝ,
      (∀ i t, |D ((Ie.decomposeLUP fl op (A.map Fx.fin)).P i) t| ≤ roundoff q (3 * n + 2) * ∑ w, |L i w| * |U w t|) ∧
      Matrix.vecMul x (A + D) = b j := by
  obtain ⟨op₀, h₀, hl⟩ := hop.real hf
  obtain ⟨hP, -, t1, -, t2, -⟩ := C124_lup hq hf h hop A L U hA hL hU
  have hrep := Ie.decomposeLUP_rep hf hop f0 f1 (A := A.map Fx.fin) (fun i j z e => by cases e; exact hA i j)
  have hok := lup_ok hf hop hl hL hU
  unfold Ie.lupSolveFollow at hx
  rw [hL, hU] at hrep hx
  have hx' : ∀ i, Ie.luSolveFollow fl op (L.map Fx.fin) (U.map Fx.fin) (b.map Fx.fin) j i = .fin (x ((Ie.decomposeLUP fl op (A.map Fx.fin)).P i)) := fun i => by
    rw [← hx, inversePermuteCols_apply _ hP.1]
  obtain ⟨hd, X, hX, e⟩ := solve_link_follow hf f0 f1 hop h₀ hl (fun i j => hrep.1 i j _ rfl) (fun i j => hrep.2 i j _ rfl) t1 t2 b j _ hx'
  have := C84_lup_solve_follow hq h h₀ A (fun i j => float_of_fix hf h (hA i j)) (by rw [hok]; exact hd) b b
  rw [hok] at this
  obtain ⟨X', hX', hD⟩ := this
  unfold Fl.lupSolveFollow at hX'
  dsimp only at hX'
  rw [hX, Option.map_some] at hX'
  cases hX'
  obtain ⟨D, h1, h2⟩ := hD j
  refine ⟨hd, D, h1, ?_⟩
  rw [← h2]
  congr 1
  funext i
  obtain ⟨t, rfl⟩ := hP.2 i
  rw [inversePermuteCols_apply _ hP.1, e t]

/-- C125: ... and for the inverse of matrices of dimensions 1 and 5 and above, for either order. -/
theorem C125_inverse_partial {q : ℕ} (hq : 1 ≤ q) (hf : Overflows fl fl₀) (h : RoundsToNearest q fl₀) (f0 : fl 0 = .fin 0) (f1 : fl 1 = .fin 1)
    (hop : Fx.IsMulSub fl op) (A L U : Matrix (Fin (n + 1)) (Fin (n + 1)) ℝ) (hA : ∀ i j, fl (A i j) = .fin (A i j))
    (hL : (Ie.decomposeLUP fl op (A.map Fx.fin)).L = L.map Fx.fin) (hU : (Ie.decomposeLUP fl op (A.map Fx.fin)).U = U.map Fx.fin)
    (b0 : Matrix (Fin (n + 1)) (Fin (n + 1)) Fx) (j : Fin (n + 1)) (x : Fin (n + 1) → ℝ) :
    ((∀ i, Ie.inverseLUP fl op .precede b0 (A.map Fx.fin) i j = .fin (x i)) →
      (∀ i, U i i ≠ 0) ∧ ∃ D : Matrix (Fin (n + 1)) (Fin (n + 1)) ℝ,
        (∀ i t, |D ((Ie.decomposeLUP fl op (A.map Fx.fin)).P i) t| ≤ roundoff q (3 * n + 2) * ∑ w, |L i w| * |U w t|) ∧
        (A + D).mulVec x = fun i => if i = j then 1 else 0) ∧
    ((∀ i, Ie.inverseLUP fl op .follow b0 (A.map Fx.fin) j i = .fin (x i)) →
      (∀ i, U i i ≠ 0) ∧ ∃ D : Matrix (Fin (n + 1)) (Fin (n + 1)) ℝ,
        (∀ i t, |D ((Ie.decomposeLUP fl op (A.map Fx.fin)).P i) t| ≤ roundoff q (3 * n + 2) * ∑ w, |L i w| * |U w t|) ∧
        Matrix.vecMul x (A + D) = fun i => if j = i then 1 else 0) := by
  have e1 : (Ie.one : Matrix (Fin (n + 1)) (Fin (n + 1)) Fx) = (1 : Matrix (Fin (n + 1)) (Fin (n + 1)) ℝ).map Fx.fin := by
    ext i j
    simp only [Ie.one, Matrix.of_apply, Matrix.map_apply, Matrix.one_apply]
    split <;> rfl
  constructor
  · intro hx
    unfold Ie.inverseLUP at hx
    dsimp only at hx
    rw [e1] at hx
    obtain ⟨h1, D, h2, h3⟩ := C125_lup_solve_partial hq hf h f0 f1 hop A L U hA hL hU b0 1 j x hx
    exact ⟨h1, D, h2, by rw [h3]; funext i; rw [Matrix.one_apply]⟩
  · intro hx
    unfold Ie.inverseLUP at hx
    dsimp only at hx
    rw [e1] at hx
    obtain ⟨h1, D, h2, h3⟩ := C125_lup_solve_follow_partial hq hf h f0 f1 hop A L U hA hL hU b0 1 j x hx
    exact ⟨h1, D, h2, by rw [h3]; funext i; rw [Matrix.one_apply]⟩

section
variable {pd : Fx → Fx → Fx → Fx → Fx} {madd msub : Fx → Fx → Fx → Fx}

private theorem quotient_finite {a d : Fx} {z : ℝ} (hz : Fx.div fl a d = .fin z) (h0 : z ≠ 0) : ∃ y, d = .fin y := by
  rcases d with _ | s | y
  · rw [div_nan'] at hz; cases hz
  · rcases a with _ | t | x
    · cases hz
    · cases hz
    · cases hz; exact absurd rfl h0
  · exact ⟨y, rfl⟩

private theorem stripes_apply {α : Type} (L : Layout) (f : Matrix (Fin n) (Fin n) α) (i j : Fin n) : ∃ i' j', stripesOf L f i j = f i' j' ∧
    ∀ {β : Type} (g : Matrix (Fin n) (Fin n) β), stripesOf L g i j = g i' j' := by
  cases L
  · exact ⟨i, j, rfl, fun _ => rfl⟩
  · exact ⟨j, i, rfl, fun _ => rfl⟩

/-- C125: if one element of the inverse of a 2×2 matrix is finite and not zero, all finite elements are accurate. Not covered: the zero matrix, which
comes out when the determinant overflows (see `C125_inv_violated`). -/
theorem C125_inv2_partial (hf : Overflows fl fl₀) (h : Rounding fl₀ u) (hpd : Fx.IsProdDiff fl pd) (L : Layout) (A : Matrix (Fin 2) (Fin 2) ℝ)
    (hA : ((1 + u) ^ 2 - 1) * absPerm A < |A.det|) (hne : ∃ i j z, Ie.inv2 fl pd L (A.map Fx.fin) i j = .fin z ∧ z ≠ 0) (i j : Fin 2) (z : ℝ)
    (hz : Ie.inv2 fl pd L (A.map Fx.fin) i j = .fin z) :
    |z - A⁻¹ i j| ≤ inverseErr u ((1 + u) ^ 2 - 1) (absPerm (A.submatrix j.succAbove i.succAbove)) (absPerm A) A.det (A⁻¹ i j) := by
  obtain ⟨pd₀, h₀, hl⟩ := hpd.real hf
  obtain ⟨X, hX, he⟩ := C103_inv2 h h₀ L A hA
  have hs := stripes_tracks L A
  obtain ⟨i1, j1, z1, e1, n1⟩ := hne
  unfold Ie.inv2 Ie.inv2Stripes at e1 hz
  unfold Fl.inv2 Fl.inv2Stripes at hX
  dsimp only at e1 hz hX
  obtain ⟨i2, j2, -, g2⟩ := stripes_apply (α := ℝ) L 0 i1 j1
  rw [g2] at e1
  obtain ⟨y, ey⟩ := quotient_finite e1 n1
  have ty := hl _ _ _ _ _ _ _ _ (hs 0 0) (hs 1 1) (hs 0 1) (hs 1 0) y ey
  split at hX
  · cases hX
  · rename_i hd
    rw [Option.map_some] at hX
    obtain rfl := Option.some.inj hX
    refine le_of_eq_of_le ?_ (he i j)
    obtain ⟨i3, j3, -, g3⟩ := stripes_apply (α := ℝ) L 0 i j
    rw [g3] at hz ⊢
    rw [ey, ty] at hz
    congr 2
    refine Tracks.div hf (x := Mathter.cof2Stripes (stripesOf L A) i3 j3) ?_ _ z hz
    fin_cases i3 <;> fin_cases j3
    exacts [hs 1 1, (hs 0 1).neg, (hs 1 0).neg, hs 0 0]

/-- C125: so it is for 3×3 ... -/
theorem C125_inv3_partial (hf : Overflows fl fl₀) (h : Rounding fl₀ u) (hpd : Fx.IsProdDiff fl pd) (c : Cfg) (p : Bool) (tb : RTree (batchSize 3 false))
    (ts : RTree (3 + 1)) (htb : tb.Valid) (hts : ts.Valid) (L : Layout) (A : Matrix (Fin 3) (Fin 3) ℝ)
    (hA : ((1 + u) ^ 5 - 1) * absPerm A < |A.det|) (hne : ∃ i j z, Ie.inv3 c p fl pd tb ts L (A.map Fx.fin) i j = .fin z ∧ z ≠ 0) (i j : Fin 3) (z : ℝ)
    (hz : Ie.inv3 c p fl pd tb ts L (A.map Fx.fin) i j = .fin z) :
    |z - A⁻¹ i j| ≤ inverseErr u ((1 + u) ^ 5 - 1) (absPerm (A.submatrix j.succAbove i.succAbove)) (absPerm A) A.det (A⁻¹ i j) := by
  obtain ⟨pd₀, h₀, hl⟩ := hpd.real hf
  obtain ⟨X, hX, he⟩ := C103_inv3 h h₀ c p tb ts htb hts L A hA
  have hs := stripes_tracks L A
  obtain ⟨i1, j1, z1, e1, n1⟩ := hne
  unfold Ie.inv3 Ie.inv3Stripes at e1 hz
  unfold Fl.inv3 Fl.inv3Stripes at hX
  dsimp only at e1 hz hX
  obtain ⟨i2, j2, -, g2⟩ := stripes_apply (α := ℝ) L 0 i1 j1
  rw [g2] at e1
  obtain ⟨y, ey⟩ := quotient_finite e1 n1
  have ty := Ie.det3_tracks hf hl tb ts hs y ey
  split at hX
  · cases hX
  · rename_i hd
    rw [Option.map_some] at hX
    obtain rfl := Option.some.inj hX
    refine le_of_eq_of_le ?_ (he i j)
    obtain ⟨i3, j3, -, g3⟩ := stripes_apply (α := ℝ) L 0 i j
    rw [g3] at hz ⊢
    rw [ey, ty] at hz
    congr 2
    exact Tracks.div hf (Ie.cof3_tracks hl hs i3 j3) _ z hz

/-- C125: ... and 4×4 matrices. -/
theorem C125_inv4_partial (hf : Overflows fl fl₀) (h : Rounding fl₀ u) (hpd : Fx.IsProdDiff fl pd) (hadd : Fx.IsMulAdd fl madd) (hsub : Fx.IsMulSub fl msub)
    (c : Cfg) (p : Bool) (tb3 : RTree (batchSize 3 false)) (ts3 : RTree (3 + 1)) (htb3 : tb3.Valid) (hts3 : ts3.Valid)
    (tb4 : RTree (batchSize 4 false)) (ts4 : RTree (4 + 1)) (htb4 : tb4.Valid) (hts4 : ts4.Valid) (L : Layout) (A : Matrix (Fin 4) (Fin 4) ℝ)
    (hA : ((1 + u) ^ 11 - 1) * absPerm A < |A.det|)
    (hne : ∃ i j z, Ie.inv4 c p fl pd madd msub tb3 ts3 tb4 ts4 L (A.map Fx.fin) i j = .fin z ∧ z ≠ 0) (i j : Fin 4) (z : ℝ)
    (hz : Ie.inv4 c p fl pd madd msub tb3 ts3 tb4 ts4 L (A.map Fx.fin) i j = .fin z) :
    |z - A⁻¹ i j| ≤ inverseErr u ((1 + u) ^ 11 - 1) (absPerm (A.submatrix j.succAbove i.succAbove)) (absPerm A) A.det (A⁻¹ i j) := by
  obtain ⟨pd₀, h₀, hl⟩ := hpd.real hf
  obtain ⟨madd₀, ha₀, hla⟩ := hadd.real hf
  obtain ⟨msub₀, hs₀, hls⟩ := hsub.real hf
  obtain ⟨X, hX, he⟩ := C103_inv4 h h₀ ha₀ hs₀ c p tb3 ts3 htb3 hts3 tb4 ts4 htb4 hts4 L A hA
  have hs := stripes_tracks L A
  obtain ⟨i1, j1, z1, e1, n1⟩ := hne
  unfold Ie.inv4 Ie.inv4Stripes at e1 hz
  unfold Fl.inv4 Fl.inv4Stripes at hX
  dsimp only at e1 hz hX
  obtain ⟨i2, j2, -, g2⟩ := stripes_apply (α := ℝ) L 0 i1 j1
  rw [g2] at e1
  obtain ⟨y, ey⟩ := quotient_finite e1 n1
  have ty := Ie.det4_tracks hf hl hla tb3 ts3 tb4 ts4 hs y ey
  split at hX
  · cases hX
  · rename_i hd
    rw [Option.map_some] at hX
    obtain rfl := Option.some.inj hX
    refine le_of_eq_of_le ?_ (he i j)
    obtain ⟨i3, j3, -, g3⟩ := stripes_apply (α := ℝ) L 0 i j
    rw [g3] at hz ⊢
    rw [ey, ty] at hz
    congr 2
    exact Tracks.div hf (Ie.cof4_tracks hf hl hla hls hs i3 j3) _ z hz

end

/-! ## C125: silent overflow -/

/-- C125: when the determinant of `diag(b, b)` overflows, its inverse is the zero matrix: finite, and wrong. -/
theorem C125_inv_violated {pd : Fx → Fx → Fx → Fx → Fx} (hpd : Fx.IsProdDiff fl pd) (f0 : fl 0 = .fin 0) (b : ℝ) (hb : ∃ s, fl (b * b) = .inf s) (h0 : b ≠ 0)
    (L : Layout) : (∀ i j, Ie.inv2 fl pd L ((!![b, 0; 0, b] : Matrix (Fin 2) (Fin 2) ℝ).map Fx.fin) i j = .fin 0) ∧
      (!![b, 0; 0, b] : Matrix (Fin 2) (Fin 2) ℝ) * !![1 / b, 0; 0, 1 / b] = 1 := by
  obtain ⟨s, hb⟩ := hb
  have m0 : Fx.mul fl (.fin 0) (.fin 0) = .fin 0 := by unfold Fx.mul; dsimp only; rw [mul_zero, f0]
  have m0' : Fx.mul .fin (.fin 0) (.fin 0) = .fin 0 := by unfold Fx.mul; dsimp only; rw [mul_zero]
  have m1 : Fx.mul fl (.fin b) (.fin b) = .inf s := hb
  have m1' : Fx.mul .fin (.fin b) (.fin b) = .fin (b * b) := rfl
  have hd : pd (.fin b) (.fin b) (.fin 0) (.fin 0) = .inf s := by
    rcases hpd (.fin b) (.fin b) (.fin 0) (.fin 0) with e | e | e <;> rw [e]
    · rw [m0, m1]; rfl
    · rw [m0, m1']; unfold Fx.sub Fx.add Fx.neg; dsimp only; rw [neg_zero, add_zero, hb]
    · rw [m0', m1]; rfl
  constructor
  · intro i j
    unfold Ie.inv2 Ie.inv2Stripes
    dsimp only
    obtain ⟨i3, j3, -, g3⟩ := stripes_apply (α := ℝ) L 0 i j
    rw [g3]
    have e : pd (stripesOf L ((!![b, 0; 0, b] : Matrix (Fin 2) (Fin 2) ℝ).map Fx.fin) 0 0) (stripesOf L ((!![b, 0; 0, b] : Matrix (Fin 2) (Fin 2) ℝ).map Fx.fin) 1 1)
        (stripesOf L ((!![b, 0; 0, b] : Matrix (Fin 2) (Fin 2) ℝ).map Fx.fin) 0 1) (stripesOf L ((!![b, 0; 0, b] : Matrix (Fin 2) (Fin 2) ℝ).map Fx.fin) 1 0) = .inf s := by
      cases L <;> exact hd
    rw [e]
    cases L <;> fin_cases i3 <;> fin_cases j3 <;> rfl
  · rw [Matrix.mul_fin_two]
    simp [h0, Matrix.one_fin_two]

/-- The matrix of `C125_solve_violated`. -/
private def bigA : Matrix (Fin 2) (Fin 2) ℝ := !![1, -600; 1, 600]

private theorem forUp_two {σ : Type} (f : Fin 2 → σ → σ) (s : σ) : forUp 2 (((0 : Fin 2) : ℕ) + 1) f s = f 1 s := rfl

private theorem forUp_none {σ : Type} (f : Fin 0 → σ → σ) (s : σ) : forUp 0 0 f s = s := rfl

private theorem lower_two (fl : ℝ → Fx) (op : Fx → Fx → Fx → Fx) (A : Matrix (Fin 2) (Fin 2) Fx) (b : Matrix (Fin 2) (Fin 1) Fx) :
    Ie.solveLower fl op A b = Matrix.of ![![Fx.div fl (b 0 0) (A 0 0)],
      ![Fx.div fl (op (b 1 0) (A 1 0) (Fx.div fl (b 0 0) (A 0 0))) (op (A 1 1) (A 1 0) (Fx.div fl (A 0 1) (A 0 0)))]] := by
  ext i j
  fin_cases i <;> fin_cases j <;> rfl

private theorem upper_two (fl : ℝ → Fx) (op : Fx → Fx → Fx → Fx) (A : Matrix (Fin 2) (Fin 2) Fx) (b : Matrix (Fin 2) (Fin 1) Fx) :
    Ie.solveUpper fl op A b = Matrix.of ![![Fx.div fl (op (b 0 0) (A 0 1) (Fx.div fl (b 1 0) (A 1 1))) (op (A 0 0) (A 0 1) (Fx.div fl (A 1 0) (A 1 1)))],
      ![Fx.div fl (b 1 0) (A 1 1)]] := by
  ext i j
  fin_cases i <;> fin_cases j <;> rfl

private theorem bigA_lup : Ie.decomposeLUP flSat (fun d a b => Fx.sub flSat d (Fx.mul flSat a b)) (bigA.map Fx.fin) =
    ⟨Matrix.of ![![.fin 1, .fin 0], ![.fin 1, .fin 1]], Matrix.of ![![.fin 1, .fin (-600)], ![.fin 0, .inf false]], id⟩ := by
  change Ie.lupStep flSat (fun d a b => Fx.sub flSat d (Fx.mul flSat a b)) (0 : Fin 2) ⟨Ie.one, bigA.map Fx.fin, id⟩ = _
  have hp : Ie.maxElementIdx (fun i => ((bigA.map Fx.fin) i 0).abs) (0 : Fin 2) = 0 := by
    change (if Fx.lt (((bigA.map Fx.fin) 0 0).abs) (((bigA.map Fx.fin) 1 0).abs) then (1 : Fin 2) else 0) = 0
    rw [if_neg]
    norm_num [bigA, Fx.abs, Fx.lt]
  unfold Ie.lupStep
  dsimp only
  rw [hp, if_neg (by norm_num [bigA, Fx.isZero])]
  rw [forUp_two, show ((0 : Fin 2) : ℕ) = 0 from rfl, forUp_none]
  congr 1
  · ext i j
    fin_cases i <;> fin_cases j <;> norm_num [Ie.luElim, Ie.one, bigA, Fx.div, flSat]
  · ext i j
    fin_cases i <;> fin_cases j <;> norm_num [Ie.luElim, bigA, Fx.div, Fx.sub, Fx.add, Fx.neg, Fx.mul, flSat]
  · funext i
    fin_cases i <;> rfl

/-- C125: a pivot that overflows makes an unknown zero: here `Solve` returns `(1, 0)` for the system `x - 600y = 1`, `x + 600y = 3`, whose solution is
`(2, 1/600)`, with numbers up to 1000. -/
theorem C125_solve_violated : ∃ (A : Matrix (Fin 2) (Fin 2) ℝ) (b x x' : Fin 2 → ℝ), (∀ i j, flSat (A i j) = .fin (A i j)) ∧ (∀ i, flSat (b i) = .fin (b i)) ∧
    (∀ i, flSat (x i) = .fin (x i)) ∧ A.mulVec x = b ∧ A.det = 1200 ∧ x' 0 = 1 ∧ x 0 = 2 ∧
    ∀ (b0 : Matrix (Fin 2) (Fin 1) Fx) i, Ie.lupSolve flSat (fun d a b => Fx.sub flSat d (Fx.mul flSat a b))
      (Ie.decomposeLUP flSat (fun d a b => Fx.sub flSat d (Fx.mul flSat a b)) (A.map Fx.fin)) b0 (Matrix.of fun i _ => .fin (b i)) i 0 = .fin (x' i) := by
  refine ⟨bigA, ![1, 3], ![2, 1 / 600], ![1, 0], ?_, ?_, ?_, ?_, ?_, rfl, rfl, ?_⟩
  · intro i j; fin_cases i <;> fin_cases j <;> norm_num [bigA, flSat]
  · intro i; fin_cases i <;> norm_num [flSat]
  · intro i; fin_cases i <;> norm_num [flSat]
  · ext i; fin_cases i <;> norm_num [bigA, Matrix.mulVec, dotProduct, Fin.sum_univ_two]
  · norm_num [bigA, Matrix.det_fin_two]
  · intro b0 i
    rw [bigA_lup]
    unfold Ie.lupSolve
    dsimp only
    rw [permuteRows_eq]
    unfold Ie.luSolve
    rw [lower_two, upper_two]
    fin_cases i <;> norm_num [Fx.div, Fx.sub, Fx.add, Fx.neg, Fx.mul, flSat]

/-! ## The hypotheses can be met -/

/-- Rounding to single precision that overflows beyond 2^127. -/
private noncomputable def fl24 (x : ℝ) : Fx := if |flAway 24 x| ≤ 2 ^ 127 then .fin (flAway 24 x) else .inf (decide (x < 0))

private theorem near24 : RoundsToNearest 24 (flAway 24) := flAway_roundsToNearest (by norm_num)

private theorem fixed24 {x : ℝ} (h : IsFloat 24 x) : flAway 24 x = x := by
  have := near24.nearest x x h
  rw [sub_self, abs_zero] at this
  exact sub_eq_zero.1 (abs_nonpos_iff.1 this)

private theorem over24 : Overflows fl24 (flAway 24) where
  round x := by
    unfold fl24
    split
    · exact Or.inl rfl
    · exact Or.inr ⟨_, rfl⟩
  idem x y h := by
    unfold fl24 at h
    split at h
    · rename_i hx
      cases h
      unfold fl24
      rw [fixed24 (near24.mem x), if_pos hx]
    · cases h

private theorem int24 (k : ℤ) (hk : |k| < 2 ^ 24) : fl24 k = .fin k := by
  have e : flAway 24 (k : ℝ) = k := fixed24 ⟨k, 0, by simp, hk⟩
  unfold fl24
  rw [e, if_pos]
  have : |(k : ℝ)| < 2 ^ 24 := by exact_mod_cast hk
  linarith [show (2 : ℝ) ^ 24 ≤ 2 ^ 127 by norm_num]

private theorem big24 : fl24 (2 ^ 200) = .inf false := by
  have e : flAway 24 (2 ^ 200) = 2 ^ 200 := fixed24 ⟨1, 200, by norm_num, by norm_num⟩
  unfold fl24
  rw [e, if_neg (by norm_num), decide_eq_false (by norm_num)]

private theorem mul24 (a b : ℤ) (hk : |a * b| < 2 ^ 24) : Fx.mul fl24 (.fin a) (.fin b) = .fin ((a * b : ℤ) : ℝ) := by
  rw [← int24 _ hk]; simp [Fx.mul]

private theorem sub24 (a b : ℤ) (hk : |a - b| < 2 ^ 24) : Fx.sub fl24 (.fin a) (.fin b) = .fin ((a - b : ℤ) : ℝ) := by
  rw [← int24 _ hk]; simp [Fx.sub, Fx.add, Fx.neg, sub_eq_add_neg]

private theorem div24 (a b k : ℤ) (hb : b ≠ 0) (e : a = k * b) (hk : |k| < 2 ^ 24) : Fx.div fl24 (.fin a) (.fin b) = .fin (k : ℝ) := by
  have hb' : (b : ℝ) ≠ 0 := by exact_mod_cast hb
  rw [← int24 _ hk, e]
  simp [Fx.div, hb']

/-- C124, C125: single precision with overflow beyond 2^127 meets the hypotheses on the arithmetic. -/
example : Overflows fl24 (flAway 24) ∧ RoundsToNearest 24 (flAway 24) ∧ Rounding (flAway 24) (2 ^ (-((24 : ℕ) : ℤ))) ∧ fl24 0 = .fin 0 ∧ fl24 1 = .fin 1 ∧
    fl24 (2 ^ 200) = .inf false ∧ Fx.IsMulSub fl24 (fun d a b => Fx.sub fl24 d (Fx.mul fl24 a b)) ∧
    Fx.IsMulAdd fl24 (fun a b d => Fx.add fl24 (Fx.mul fl24 a b) d) ∧
    Fx.IsProdDiff fl24 (fun a b c d => Fx.sub fl24 (Fx.mul fl24 a b) (Fx.mul fl24 c d)) :=
  ⟨over24, near24, near24.rounding (by norm_num), by exact_mod_cast int24 0 (by norm_num), by exact_mod_cast int24 1 (by norm_num), big24,
    fun _ _ _ => Or.inl rfl, fun _ _ _ => Or.inl rfl, fun _ _ _ _ => Or.inl rfl⟩

/-- C124: a determinant. -/
example : Ie.det2 (fun a b c d => Fx.sub fl24 (Fx.mul fl24 a b) (Fx.mul fl24 c d)) ((!![((1 : ℤ) : ℝ), (2 : ℤ); (3 : ℤ), (5 : ℤ)]).map Fx.fin) = .fin ((-1 : ℤ) : ℝ) := by
  change Fx.sub fl24 (Fx.mul fl24 (.fin ((1 : ℤ) : ℝ)) (.fin ((5 : ℤ) : ℝ))) (Fx.mul fl24 (.fin ((3 : ℤ) : ℝ)) (.fin ((2 : ℤ) : ℝ))) = _
  rw [mul24 1 5 (by norm_num), mul24 3 2 (by norm_num), sub24 _ _ (by norm_num)]
  norm_num

/-- C124, C125: factors and a solution that are finite. -/
example : (Ie.decomposeLU fl24 (fun d a b => Fx.sub fl24 d (Fx.mul fl24 a b)) ((!![((1 : ℤ) : ℝ), (2 : ℤ); (3 : ℤ), (5 : ℤ)]).map Fx.fin)).L =
      (!![((1 : ℤ) : ℝ), (0 : ℤ); (3 : ℤ), (1 : ℤ)]).map Fx.fin ∧
    (Ie.decomposeLU fl24 (fun d a b => Fx.sub fl24 d (Fx.mul fl24 a b)) ((!![((1 : ℤ) : ℝ), (2 : ℤ); (3 : ℤ), (5 : ℤ)]).map Fx.fin)).U =
      (!![((1 : ℤ) : ℝ), (2 : ℤ); (0 : ℤ), (-1 : ℤ)]).map Fx.fin ∧
    ∀ i, Ie.luSolve fl24 (fun d a b => Fx.sub fl24 d (Fx.mul fl24 a b)) ((!![((1 : ℤ) : ℝ), (0 : ℤ); (3 : ℤ), (1 : ℤ)]).map Fx.fin)
      ((!![((1 : ℤ) : ℝ), (2 : ℤ); (0 : ℤ), (-1 : ℤ)]).map Fx.fin) ((Matrix.of fun i (_ : Fin 1) => (((![5, 13] : Fin 2 → ℤ) i : ℤ) : ℝ)).map Fx.fin) i 0 =
      .fin (((![1, 2] : Fin 2 → ℤ) i : ℤ) : ℝ) := by
  have d3 : Fx.div fl24 (.fin ((3 : ℤ) : ℝ)) (.fin ((1 : ℤ) : ℝ)) = .fin ((3 : ℤ) : ℝ) := div24 3 1 3 (by norm_num) (by norm_num) (by norm_num)
  refine ⟨?_, ?_, ?_⟩
  · change (Ie.luElim fl24 (fun d a b => Fx.sub fl24 d (Fx.mul fl24 a b)) (0 : Fin 2) 1
      (((!![((1 : ℤ) : ℝ), (2 : ℤ); (3 : ℤ), (5 : ℤ)]).map Fx.fin) 0) ⟨Ie.one, (!![((1 : ℤ) : ℝ), (2 : ℤ); (3 : ℤ), (5 : ℤ)]).map Fx.fin⟩).L = _
    ext i j
    fin_cases i <;> fin_cases j
    · simp [Ie.luElim, Ie.one]
    · simp [Ie.luElim, Ie.one]
    · exact d3
    · simp [Ie.luElim, Ie.one]
  · change (Ie.luElim fl24 (fun d a b => Fx.sub fl24 d (Fx.mul fl24 a b)) (0 : Fin 2) 1
      (((!![((1 : ℤ) : ℝ), (2 : ℤ); (3 : ℤ), (5 : ℤ)]).map Fx.fin) 0) ⟨Ie.one, (!![((1 : ℤ) : ℝ), (2 : ℤ); (3 : ℤ), (5 : ℤ)]).map Fx.fin⟩).U = _
    ext i j
    fin_cases i <;> fin_cases j
    · rfl
    · rfl
    · simp [Ie.luElim]
    · change Fx.sub fl24 (.fin ((5 : ℤ) : ℝ)) (Fx.mul fl24 (.fin ((2 : ℤ) : ℝ)) (Fx.div fl24 (.fin ((3 : ℤ) : ℝ)) (.fin ((1 : ℤ) : ℝ)))) = .fin ((-1 : ℤ) : ℝ)
      rw [d3, mul24 2 3 (by norm_num), sub24 _ _ (by norm_num)]
      norm_num
  · unfold Ie.luSolve
    rw [lower_two, upper_two]
    have d0 : Fx.div fl24 (.fin ((0 : ℤ) : ℝ)) (.fin ((1 : ℤ) : ℝ)) = .fin ((0 : ℤ) : ℝ) := div24 0 1 0 (by norm_num) (by norm_num) (by norm_num)
    have d0' : Fx.div fl24 (.fin ((0 : ℤ) : ℝ)) (.fin ((-1 : ℤ) : ℝ)) = .fin ((0 : ℤ) : ℝ) := div24 0 (-1) 0 (by norm_num) (by norm_num) (by norm_num)
    have d5 : Fx.div fl24 (.fin ((5 : ℤ) : ℝ)) (.fin ((1 : ℤ) : ℝ)) = .fin ((5 : ℤ) : ℝ) := div24 5 1 5 (by norm_num) (by norm_num) (by norm_num)
    have m15 := mul24 3 5 (by norm_num)
    have s15 := sub24 13 (3 * 5) (by norm_num)
    have m0 := mul24 3 0 (by norm_num)
    have s0 := sub24 1 (3 * 0) (by norm_num)
    have m20 := mul24 2 0 (by norm_num)
    have s20 := sub24 1 (2 * 0) (by norm_num)
    have d2 : Fx.div fl24 (.fin ((13 - 3 * 5 : ℤ) : ℝ)) (.fin ((1 - 3 * 0 : ℤ) : ℝ)) = .fin ((-2 : ℤ) : ℝ) := div24 _ _ _ (by norm_num) (by norm_num) (by norm_num)
    have d2' : Fx.div fl24 (.fin ((-2 : ℤ) : ℝ)) (.fin ((-1 : ℤ) : ℝ)) = .fin ((2 : ℤ) : ℝ) := div24 _ _ _ (by norm_num) (by norm_num) (by norm_num)
    have m4 := mul24 2 2 (by norm_num)
    have s4 := sub24 5 (2 * 2) (by norm_num)
    have d1 : Fx.div fl24 (.fin ((5 - 2 * 2 : ℤ) : ℝ)) (.fin ((1 - 2 * 0 : ℤ) : ℝ)) = .fin ((1 : ℤ) : ℝ) := div24 _ _ _ (by norm_num) (by norm_num) (by norm_num)
    intro i
    fin_cases i
    · change Fx.div fl24 (Fx.sub fl24 (Fx.div fl24 (.fin ((5 : ℤ) : ℝ)) (.fin ((1 : ℤ) : ℝ))) (Fx.mul fl24 (.fin ((2 : ℤ) : ℝ)) (Fx.div fl24 (Fx.div fl24
        (Fx.sub fl24 (.fin ((13 : ℤ) : ℝ)) (Fx.mul fl24 (.fin ((3 : ℤ) : ℝ)) (Fx.div fl24 (.fin ((5 : ℤ) : ℝ)) (.fin ((1 : ℤ) : ℝ)))))
        (Fx.sub fl24 (.fin ((1 : ℤ) : ℝ)) (Fx.mul fl24 (.fin ((3 : ℤ) : ℝ)) (Fx.div fl24 (.fin ((0 : ℤ) : ℝ)) (.fin ((1 : ℤ) : ℝ)))))) (.fin ((-1 : ℤ) : ℝ)))))
        (Fx.sub fl24 (.fin ((1 : ℤ) : ℝ)) (Fx.mul fl24 (.fin ((2 : ℤ) : ℝ)) (Fx.div fl24 (.fin ((0 : ℤ) : ℝ)) (.fin ((-1 : ℤ) : ℝ))))) = .fin ((1 : ℤ) : ℝ)
      rw [d5, d0, d0', m15, s15, m0, s0, m20, s20, d2, d2', m4, s4, d1]
    · change Fx.div fl24 (Fx.div fl24
        (Fx.sub fl24 (.fin ((13 : ℤ) : ℝ)) (Fx.mul fl24 (.fin ((3 : ℤ) : ℝ)) (Fx.div fl24 (.fin ((5 : ℤ) : ℝ)) (.fin ((1 : ℤ) : ℝ)))))
        (Fx.sub fl24 (.fin ((1 : ℤ) : ℝ)) (Fx.mul fl24 (.fin ((3 : ℤ) : ℝ)) (Fx.div fl24 (.fin ((0 : ℤ) : ℝ)) (.fin ((1 : ℤ) : ℝ)))))) (.fin ((-1 : ℤ) : ℝ)) = .fin ((2 : ℤ) : ℝ)
      rw [d5, d0, m15, s15, m0, s0, d2, d2']

/-- C125: an inverse with a finite element that is not zero. -/
example (L : Layout) : Ie.inv2 fl24 (fun a b c d => Fx.sub fl24 (Fx.mul fl24 a b) (Fx.mul fl24 c d)) L ((!![((1 : ℤ) : ℝ), (2 : ℤ); (3 : ℤ), (5 : ℤ)]).map Fx.fin) 0 0 =
      .fin ((-5 : ℤ) : ℝ) ∧
    ((1 + 2 ^ (-((24 : ℕ) : ℤ))) ^ 2 - 1) * absPerm (!![((1 : ℤ) : ℝ), (2 : ℤ); (3 : ℤ), (5 : ℤ)]) < |(!![((1 : ℤ) : ℝ), (2 : ℤ); (3 : ℤ), (5 : ℤ)]).det| := by
  constructor
  · have h : ∀ a b : ℤ, a * b = 6 → Fx.div fl24 (.fin ((5 : ℤ) : ℝ)) (Fx.sub fl24 (Fx.mul fl24 (.fin ((1 : ℤ) : ℝ)) (.fin ((5 : ℤ) : ℝ))) (Fx.mul fl24 (.fin (a : ℝ)) (.fin (b : ℝ)))) =
        .fin ((-5 : ℤ) : ℝ) := fun a b hab => by
      rw [mul24 1 5 (by norm_num), mul24 a b (by rw [hab]; norm_num), hab, sub24 _ _ (by norm_num)]
      exact div24 _ _ _ (by norm_num) (by norm_num) (by norm_num)
    cases L
    · exact h 2 3 (by norm_num)
    · exact h 3 2 (by norm_num)
  · rw [Matrix.det_fin_two]
    unfold absPerm; rw [permanent_two]; norm_num

/-- C125: the determinant 2^200 of a matrix of finite numbers overflows. -/
example : ∃ b : ℝ, fl24 b = .fin b ∧ b ≠ 0 ∧ ∃ s, fl24 (b * b) = .inf s := by
  refine ⟨2 ^ 100, ?_, by norm_num, false, by rw [← big24]; norm_num⟩
  have e : flAway 24 (2 ^ 100) = 2 ^ 100 := fixed24 ⟨1, 100, by norm_num, by norm_num⟩
  unfold fl24
  rw [e, if_pos (by norm_num)]

end Mathter.Props
