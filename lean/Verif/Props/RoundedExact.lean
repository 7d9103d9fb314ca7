import Verif.Lemmas.RoundedOne
import Verif.Props.Fma
import Verif.Props.RoundedDeterminant
import Verif.Props.RoundedLinear
import Verif.Props.RoundedMatrixNorm
import Verif.Props.RoundedQuaternion

/-!
# Property C157: floating point arithmetic on small integers (or small multiples of a power of two) does not round

For every reduction order, layout and configuration, so that the results do not depend on them either.
-/

namespace Mathter.Props
open Mathter Red Quat

variable {c cR : Cfg} {r n k dim : ℕ} {o : Order} {L L' : Layout} {pk p1 p2 : Bool} {fl : ℝ → ℝ} {p : ℕ} {e f : ℤ}

private theorem grid_fix (h : RoundsToNearest p fl) (hp : 1 ≤ p) {x : ℝ} (hx : Grid e x) (hb : |x| ≤ (2 : ℝ) ^ ((p : ℤ) + e)) : fl x = x :=
  h.fixed (isFloat_of_grid hp hx hb)

private theorem grid_zero : Grid e 0 := ⟨0, by simp⟩

private theorem grid_mul {x y : ℝ} (hx : Grid e x) (hy : Grid f y) : Grid (e + f) (x * y) := by
  obtain ⟨m, rfl⟩ := hx; obtain ⟨q, rfl⟩ := hy
  exact ⟨m * q, by rw [zpow_add₀ (by norm_num)]; push_cast; ring⟩

private theorem tree_exact (h : RoundsToNearest p fl) (hp : 1 ≤ p) {N : ℕ} (b : Fin N → ℝ) (hb : ∀ i, Grid e (b i)) (t : RTree N)
    (hs : (t.leaves.map fun i => |b i|).sum ≤ (2 : ℝ) ^ ((p : ℤ) + e)) :
    Grid e (t.eval (fun x y => fl (x + y)) b) ∧ t.eval (fun x y => fl (x + y)) b = (t.leaves.map b).sum := by
  induction t with
  | leaf i => simpa [RTree.eval, RTree.leaves] using hb i
  | node l r hl hr =>
    rw [RTree.leaves, List.map_append, List.sum_append] at hs
    have nl : 0 ≤ (l.leaves.map fun i => |b i|).sum := (abs_nonneg _).trans (abs_sum b l.leaves)
    have nr : 0 ≤ (r.leaves.map fun i => |b i|).sum := (abs_nonneg _).trans (abs_sum b r.leaves)
    obtain ⟨gl, el⟩ := hl (by linarith)
    obtain ⟨gr, er⟩ := hr (by linarith)
    have hf : fl (l.eval (fun x y => fl (x + y)) b + r.eval (fun x y => fl (x + y)) b) = l.eval (fun x y => fl (x + y)) b + r.eval (fun x y => fl (x + y)) b := by
      refine grid_fix h hp (grid_add gl gr) ((abs_add_le _ _).trans ?_)
      rw [el, er]
      linarith [abs_sum b l.leaves, abs_sum b r.leaves]
    simp only [RTree.eval]
    rw [hf, RTree.leaves, List.map_append, List.sum_append, ← el, ← er]
    exact ⟨grid_add gl gr, rfl⟩

private theorem padded_exact (h : RoundsToNearest p fl) (hp : 1 ≤ p) {N : ℕ} (hd : dim ≤ N) (b : Fin N → ℝ) (x : Fin dim → ℝ) (hx : ∀ i, Grid e (x i))
    (hbx : ∀ l, b l = if h : l.val < dim then x ⟨l.val, h⟩ else 0) (t : RTree N) (ht : t.Valid) (hs : ∑ i, |x i| ≤ (2 : ℝ) ^ ((p : ℤ) + e)) :
    t.eval (fun x y => fl (x + y)) b = ∑ i, x i := by
  have k1 := sum_padded hd b x hbx t ht id rfl
  have k2 := sum_padded hd b x hbx t ht abs abs_zero
  simp only [id] at k1
  rw [← k1]
  refine (tree_exact h hp b (fun i => ?_) t (by rw [k2]; exact hs)).2
  rw [hbx]; split
  · exact hx _
  · exact grid_zero

/-- C157: `Sum` of a vector of multiples of `2 ^ e` is exact if the absolute values add up to at most `2 ^ (p + e)`. -/
theorem C157_sum (h : RoundsToNearest p fl) (hp : 1 ≤ p) (tb : RTree (batchSize dim false)) (ts : RTree (dim + 1)) (htb : tb.Valid) (hts : ts.Valid)
    (v : Vec c ℝ dim pk) (hv : ∀ i, Grid e (v.get i)) (hs : ∑ i, |v.get i| ≤ (2 : ℝ) ^ ((p : ℤ) + e)) : Fl.sum fl tb ts v = ∑ i, v.get i := by
  unfold Fl.sum
  split
  · rename_i hb
    refine padded_exact h hp (le_batchSize dim false) _ v.get hv (fun l => ?_) tb htb hs
    unfold Vec.fillMasked
    split
    · rw [dif_pos (by omega)]; rfl
    · dsimp only
      split <;> rfl
  · exact padded_exact h hp (Nat.le_succ _) _ v.get hv (fun l => rfl) ts hts hs

/-- C157: `Dot`. -/
theorem C157_dot (h : RoundsToNearest p fl) (hp : 1 ≤ p) (conv : Bool) (tb : RTree (batchSize dim false)) (ts : RTree (dim + 1)) (htb : tb.Valid) (hts : ts.Valid)
    (a : Vec c ℝ dim p1) (b : Vec c ℝ dim p2) (ha : ∀ i, Grid e (a.get i)) (hb : ∀ i, Grid f (b.get i))
    (hs : ∑ i, |a.get i * b.get i| ≤ (2 : ℝ) ^ ((p : ℤ) + (e + f))) : Fl.dot fl conv tb ts a b = ∑ i, a.get i * b.get i := by
  have g : ∀ i, (Fl.mul fl conv a b).get i = a.get i * b.get i := fun i => by
    rw [Fl.mul, Vec.get_doBinary]
    exact grid_fix h hp (grid_mul (ha i) (hb i)) ((Finset.single_le_sum (f := fun i => |a.get i * b.get i|) (fun _ _ => abs_nonneg _) (Finset.mem_univ i)).trans hs)
  have := C157_sum h hp tb ts htb hts (Fl.mul fl conv a b) (fun i => by rw [g]; exact grid_mul (ha i) (hb i)) (by simp only [g]; exact hs)
  simp only [g] at this
  exact this

/-- C157: `LengthSquared` is exact and `Length` correctly rounded. -/
theorem C157_length (h : RoundsToNearest p fl) (hp : 1 ≤ p) (conv : Bool) (tb : RTree (batchSize dim false)) (ts : RTree (dim + 1)) (htb : tb.Valid) (hts : ts.Valid)
    (v : Vec c ℝ dim pk) (hv : ∀ i, Grid e (v.get i)) (hs : ∑ i, v.get i ^ 2 ≤ (2 : ℝ) ^ ((p : ℤ) + (e + e))) :
    Fl.lengthSquared fl conv tb ts v = ∑ i, v.get i ^ 2 ∧ Fl.length fl conv tb ts v = fl (Real.sqrt (∑ i, v.get i ^ 2)) := by
  have : Fl.lengthSquared fl conv tb ts v = ∑ i, v.get i ^ 2 := by
    have := C157_dot h hp conv tb ts htb hts v v hv hv (by simpa only [← sq, abs_sq] using hs)
    simp only [← sq] at this
    exact this
  refine ⟨this, ?_⟩
  rw [Fl.length, this]

private theorem abs_le_of_sq {x : ℝ} (hx : Grid e x) (hs : x ^ 2 ≤ (2 : ℝ) ^ ((p : ℤ) + (e + e))) : |x| ≤ (2 : ℝ) ^ ((p : ℤ) + e) := by
  obtain ⟨m, rfl⟩ := hx
  have h2 := two_zpow_pos e
  rw [mul_pow, zpow_add₀ (by norm_num), zpow_add₀ (by norm_num), ← sq, mul_le_mul_iff_left₀ (by positivity)] at hs
  rw [abs_mul, abs_of_pos h2, zpow_add₀ (by norm_num), mul_le_mul_iff_left₀ h2]
  have : |m| ≤ m ^ 2 := by
    rw [← sq_abs]
    have := abs_nonneg m
    rcases eq_or_lt_of_le this with h0 | h0
    · rw [← h0]; norm_num
    · nlinarith
  have : (|m| : ℝ) ≤ (m : ℝ) ^ 2 := by exact_mod_cast this
  linarith

/-- C157: `Distance` is correctly rounded. -/
theorem C157_distance (h : RoundsToNearest p fl) (hp : 1 ≤ p) (conv : Bool) (tb : RTree (batchSize dim false)) (ts : RTree (dim + 1)) (htb : tb.Valid)
    (hts : ts.Valid) (a : Vec c ℝ dim p1) (b : Vec c ℝ dim p2) (ha : ∀ i, Grid e (a.get i)) (hb : ∀ i, Grid e (b.get i))
    (hs : ∑ i, (a.get i - b.get i) ^ 2 ≤ (2 : ℝ) ^ ((p : ℤ) + (e + e))) :
    Fl.distance fl conv tb ts a b = fl (Real.sqrt (∑ i, (a.get i - b.get i) ^ 2)) := by
  have g : ∀ i, (Fl.sub fl conv a b).get i = a.get i - b.get i := fun i => by
    rw [Fl.sub, Vec.get_doBinary]
    exact grid_fix h hp (grid_sub (ha i) (hb i)) (abs_le_of_sq (grid_sub (ha i) (hb i))
      ((Finset.single_le_sum (f := fun i => (a.get i - b.get i) ^ 2) (fun _ _ => sq_nonneg _) (Finset.mem_univ i)).trans hs))
  have := (C157_length h hp conv tb ts htb hts (Fl.sub fl conv a b) (fun i => by rw [g]; exact grid_sub (ha i) (hb i)) (by simp only [g]; exact hs)).2
  simp only [g] at this
  exact this

private theorem accum_exact [NeZero k] (h : RoundsToNearest p fl) (hp : 1 ≤ p) {op : ℝ → ℝ → ℝ → ℝ} (hop : Fl.IsMulAdd fl op) (x y : Fin k → ℝ)
    (hx : ∀ q, Grid e (x q)) (hy : ∀ q, Grid f (y q)) (hs : ∑ q, |x q * y q| ≤ (2 : ℝ) ^ ((p : ℤ) + (e + f))) : accum fl op x y = ∑ q, x q * y q := by
  have hk : 1 ≤ k := Nat.one_le_iff_ne_zero.2 (NeZero.ne k)
  have g : ∀ q, Grid (e + f) (x q * y q) := fun q => grid_mul (hx q) (hy q)
  have fx : ∀ q, fl (x q * y q) = x q * y q := fun q =>
    grid_fix h hp (g q) ((Finset.single_le_sum (f := fun q => |x q * y q|) (fun _ _ => abs_nonneg _) (Finset.mem_univ q)).trans hs)
  have hps : ∀ q, |psum (fun q => x q * y q) q| ≤ (2 : ℝ) ^ ((p : ℤ) + (e + f)) := fun q => by
    refine (psum_abs_le _ q).trans (le_trans ?_ hs)
    unfold psum
    exact Finset.sum_le_sum fun i _ => by
      split
      · exact le_rfl
      · exact abs_nonneg _
  have := forUp_inv (n := k) (lo := 1) (body := fun q s => op (x q) (y q) s) (s := fl (x 0 * y 0))
    (fun q s => s = psum (fun q => x q * y q) q ∧ Grid (e + f) s) hk ⟨by rw [psum_one', fx], by rw [fx]; exact g 0⟩ (by
      rintro q s - ⟨e1, g1⟩
      have e2 : fl (x q * y q + s) = x q * y q + s := grid_fix h hp (grid_add (g q) g1) (by
        rw [e1, add_comm, ← psum_succ (fun q => x q * y q)]; exact hps _)
      have e3 : op (x q) (y q) s = x q * y q + s := by
        rcases hop (x q) (y q) s with e | e <;> rw [e]
        · rw [fx, e2]
        · exact e2
      rw [e3]
      exact ⟨by rw [psum_succ, e1, add_comm], grid_add (g q) g1⟩)
  have := this.1
  rwa [psum_all] at this

/-- C157: products of matrices, with or without contracted multiply-add. -/
theorem C157_mul [NeZero k] (h : RoundsToNearest p fl) (hp : 1 ≤ p) {op : ℝ → ℝ → ℝ → ℝ} (hop : Fl.IsMulAdd fl op) (conv : Bool)
    (tb : RTree (batchSize k false)) (ts : RTree (k + 1)) (htb : tb.Valid) (hts : ts.Valid) (m0 : Mat c ℝ r n o L (p1 && p2)) (a : Mat c ℝ r k o L p1)
    (b : Mat c ℝ k n o L' p2) (ha : ∀ i q, Grid e (a.get i q)) (hb : ∀ q j, Grid f (b.get q j)) (i : Fin r) (j : Fin n)
    (hs : ∑ q, |a.get i q * b.get q j| ≤ (2 : ℝ) ^ ((p : ℤ) + (e + f))) :
    (Fl.matMul fl op conv tb ts m0 a b).get i j = ∑ q, a.get i q * b.get q j := by
  cases L
  · cases L'
    · simp only [Fl.matMul]; rw [mulRR_get']; exact accum_exact h hp hop _ _ (ha i) (fun q => hb q j) hs
    · simp only [Fl.matMul, Fl.mulRC]; rw [Mat.get_fillLoop]
      exact C157_dot h hp conv tb ts htb hts (a.stripes i) (b.stripes j) (ha i) (fun q => hb q j) hs
  · simp only [Fl.matMul]; rw [mulC_get']; exact accum_exact h hp hop _ _ (ha i) (fun q => hb q j) hs

/-- C157: products of vectors and matrices. -/
theorem C157_vec_mul [NeZero k] (h : RoundsToNearest p fl) (hp : 1 ≤ p) {op : ℝ → ℝ → ℝ → ℝ} (hop : Fl.IsMulAdd fl op) (conv : Bool)
    (tb : RTree (batchSize k false)) (ts : RTree (k + 1)) (htb : tb.Valid) (hts : ts.Valid) (v0 : Vec c ℝ n (p1 && p2)) (v : Vec c ℝ k p1)
    (m : Mat c ℝ k n .follow L p2) (hv : ∀ q, Grid e (v.get q)) (hm : ∀ q j, Grid f (m.get q j)) (j : Fin n)
    (hs : ∑ q, |v.get q * m.get q j| ≤ (2 : ℝ) ^ ((p : ℤ) + (e + f))) : Fl.vecMul fl op conv tb ts v0 v m j = ∑ q, v.get q * m.get q j := by
  cases L
  · simp only [Fl.vecMul]; rw [vecMulR_get']; exact accum_exact h hp hop _ _ hv (fun q => hm q j) hs
  · simp only [Fl.vecMul, Fl.vecMulC]
    rw [Vec.get_setLoop fun j => Fl.sum fl tb ts (Fl.mul fl conv v (m.stripes j))]
    exact C157_dot h hp conv tb ts htb hts v (m.stripes j) hv (fun q => hm q j) hs

/-- C157: products of matrices and vectors. -/
theorem C157_mul_vec [NeZero k] (h : RoundsToNearest p fl) (hp : 1 ≤ p) {op : ℝ → ℝ → ℝ → ℝ} (hop : Fl.IsMulAdd fl op) (conv : Bool)
    (tb : RTree (batchSize k false)) (ts : RTree (k + 1)) (htb : tb.Valid) (hts : ts.Valid) (v0 : Vec c ℝ n (p2 && p1)) (f0 : Mat c ℝ k n .follow L.flip p1)
    (m : Mat c ℝ n k .precede L p1) (v : Vec c ℝ k p2) (hv : ∀ q, Grid e (v.get q)) (hm : ∀ i q, Grid f (m.get i q)) (i : Fin n)
    (hs : ∑ q, |m.get i q * v.get q| ≤ (2 : ℝ) ^ ((p : ℤ) + (e + f))) : Fl.mulVec fl op conv tb ts v0 f0 m v i = ∑ q, m.get i q * v.get q := by
  have e1 : ∀ q j, (Mat.flipLayoutAndOrder (o := .precede) f0 m).get q j = m.get j q := fun q j =>
    congrFun (congrFun (C21_convert_order (o := .precede) f0 m) q) j
  have := C157_vec_mul h hp hop conv tb ts htb hts v0 v (Mat.flipLayoutAndOrder (o := .precede) f0 m) hv (fun q j => by rw [e1]; exact hm j q) i
    (by simp only [e1, mul_comm (v.get _)]; exact hs)
  simp only [e1, mul_comm (v.get _)] at this
  exact this

private theorem acc_exact (h : RoundsToNearest p fl) (hp : 1 ≤ p) {N : ℕ} {g x M : Fin N → ℝ} (hg : ∀ s, g s = x s) (hx : ∀ s, Grid e (x s)) (hM : ∀ s, |x s| ≤ M s)
    (hs : ∑ s, M s ≤ (2 : ℝ) ^ ((p : ℤ) + e)) : forUp N 0 (fun s acc => fl (acc + g s)) 0 = ∑ s, x s := by
  have hps : ∀ q, |psum x q| ≤ (2 : ℝ) ^ ((p : ℤ) + e) := fun q => by
    refine (psum_abs_le _ q).trans (le_trans ?_ hs)
    unfold psum
    exact Finset.sum_le_sum fun i _ => by
      split
      · exact hM i
      · exact (abs_nonneg _).trans (hM i)
  have := forUp_inv (n := N) (lo := 0) (body := fun s acc => fl (acc + g s)) (s := (0 : ℝ)) (fun q acc => acc = psum x q ∧ Grid e acc) (Nat.zero_le _)
    ⟨by rw [psum_zero], grid_zero⟩ (by
      rintro s acc - ⟨e1, g1⟩
      have e2 : fl (acc + x s) = acc + x s := grid_fix h hp (grid_add g1 (hx s)) (by rw [e1, ← psum_succ x]; exact hps _)
      rw [hg, e2]
      exact ⟨by rw [psum_succ, e1], grid_add g1 (hx s)⟩)
  have := this.1
  rwa [psum_all] at this

private theorem grid_sum {N : ℕ} {x : Fin N → ℝ} (hx : ∀ i, Grid e (x i)) : Grid e (∑ i, x i) :=
  Finset.sum_induction _ _ (fun _ _ => grid_add) grid_zero fun i _ => hx i

/-- C157: `Sum` of a matrix. -/
theorem C157_matrix_sum (h : RoundsToNearest p fl) (hp : 1 ≤ p) (tb : RTree (batchSize (stripeDim L r n) false)) (ts : RTree (stripeDim L r n + 1)) (htb : tb.Valid)
    (hts : ts.Valid) (m : Mat c ℝ r n o L pk) (hm : ∀ i j, Grid e (m.get i j)) (hs : ∑ i, ∑ j, |m.get i j| ≤ (2 : ℝ) ^ ((p : ℤ) + e)) :
    Fl.matSum fl tb ts m = ∑ i, ∑ j, m.get i j := by
  cases L
  · refine acc_exact (N := r) h hp (M := fun i => ∑ j, |m.get i j|) (fun s => C157_sum h hp tb ts htb hts (m.stripes s) (fun t => hm s t) ?_)
      (fun s => grid_sum fun t => hm s t) (fun s => Finset.abs_sum_le_sum_abs _ _) hs
    exact (Finset.single_le_sum (f := fun i => ∑ j, |m.get i j|) (fun _ _ => Finset.sum_nonneg fun _ _ => abs_nonneg _) (Finset.mem_univ s)).trans hs
  · rw [Finset.sum_comm] at hs ⊢
    refine acc_exact (N := n) h hp (M := fun j => ∑ i, |m.get i j|) (fun s => C157_sum h hp tb ts htb hts (m.stripes s) (fun t => hm t s) ?_)
      (fun s => grid_sum fun t => hm t s) (fun s => Finset.abs_sum_le_sum_abs _ _) hs
    exact (Finset.single_le_sum (f := fun j => ∑ i, |m.get i j|) (fun _ _ => Finset.sum_nonneg fun _ _ => abs_nonneg _) (Finset.mem_univ s)).trans hs

/-- C157: `Trace`. -/
theorem C157_trace (h : RoundsToNearest p fl) (hp : 1 ≤ p) (tb : RTree (batchSize n false)) (ts : RTree (n + 1)) (htb : tb.Valid) (hts : ts.Valid) (v0 : Vec c ℝ n pk)
    (m : Mat c ℝ n n o L pk) (hm : ∀ i, Grid e (m.get i i)) (hs : ∑ i, |m.get i i| ≤ (2 : ℝ) ^ ((p : ℤ) + e)) : Fl.trace fl tb ts v0 m = ∑ i, m.get i i := by
  have := C157_sum (e := e) h hp tb ts htb hts (forUp n 0 (fun i v => v.set i (m.get i i)) v0) (fun i => by
    rw [Vec.get_setLoop fun i => m.get i i]; exact hm i) (by simp only [Vec.get_setLoop fun i => m.get i i]; exact hs)
  simp only [Vec.get_setLoop fun i => m.get i i] at this
  exact this

/-- C157: `NormSquared` is exact and `Norm` correctly rounded. -/
theorem C157_norm (h : RoundsToNearest p fl) (hp : 1 ≤ p) (conv : Bool) (tb : RTree (batchSize (stripeDim L r n) false)) (ts : RTree (stripeDim L r n + 1))
    (htb : tb.Valid) (hts : ts.Valid) (jr : Vec c ℝ n pk) (jc : Vec c ℝ r pk) (m0 : Mat c ℝ r n o L pk) (m1 m2 : Mat c ℝ r n o L (pk && pk)) (m : Mat c ℝ r n o L pk)
    (hm : ∀ i j, Grid e (m.get i j)) (hs : ∑ i, ∑ j, m.get i j ^ 2 ≤ (2 : ℝ) ^ ((p : ℤ) + (e + e))) :
    Fl.matNormSquared fl conv tb ts jr jc m0 m1 m2 m = ∑ i, ∑ j, m.get i j ^ 2 ∧
    Fl.matNorm fl conv tb ts jr jc m0 m1 m2 m = fl (Real.sqrt (∑ i, ∑ j, m.get i j ^ 2)) := by
  have hg : ∀ i j, Grid (e + e) (m.get i j ^ 2) := fun i j => by rw [sq]; exact grid_mul (hm i j) (hm i j)
  have hle : ∀ i j, m.get i j ^ 2 ≤ (2 : ℝ) ^ ((p : ℤ) + (e + e)) := fun i j =>
    ((Finset.single_le_sum (f := fun j => m.get i j ^ 2) (fun _ _ => sq_nonneg _) (Finset.mem_univ j)).trans
      (Finset.single_le_sum (f := fun i => ∑ j, m.get i j ^ 2) (fun _ _ => Finset.sum_nonneg fun _ _ => sq_nonneg _) (Finset.mem_univ i))).trans hs
  have key : Fl.matNormSquared fl conv tb ts jr jc m0 m1 m2 m = ∑ i, ∑ j, m.get i j ^ 2 := by
    have g : ∀ i j, _ = m.get i j ^ 2 := fun i j =>
      (normSquared_element fl conv jr jc m0 m1 m2 m i j).trans (by rw [← sq]; exact grid_fix h hp (hg i j) (by rw [abs_sq]; exact hle i j))
    unfold Fl.matNormSquared
    have := C157_matrix_sum (e := e + e) h hp tb ts htb hts _ (fun i j => by rw [g]; exact hg i j) (by simp only [g, abs_sq]; exact hs)
    simp only [g] at this
    exact this
  refine ⟨key, ?_⟩
  rw [Fl.matNorm, key]

private theorem pd_exact (h : RoundsToNearest p fl) (hp : 1 ≤ p) {pd : ℝ → ℝ → ℝ → ℝ → ℝ} (hpd : Fl.IsProdDiff fl pd) {a b a' b' : ℝ} (h1 : Grid f (a * b))
    (h2 : Grid f (a' * b')) (hs : |a| * |b| + |a'| * |b'| ≤ (2 : ℝ) ^ ((p : ℤ) + f)) : pd a b a' b' = a * b - a' * b' := by
  have n1 : 0 ≤ |a| * |b| := by positivity
  have n2 : 0 ≤ |a'| * |b'| := by positivity
  have e1 : fl (a * b) = a * b := grid_fix h hp h1 (by rw [abs_mul]; linarith)
  have e2 : fl (a' * b') = a' * b' := grid_fix h hp h2 (by rw [abs_mul]; linarith)
  have e3 : fl (a * b - a' * b') = a * b - a' * b' := grid_fix h hp (grid_sub h1 h2) (by
    have := abs_sub (a * b) (a' * b')
    rw [abs_mul, abs_mul] at this
    linarith)
  rcases hpd a b a' b' with e | e | e <;> rw [e] <;> simp only [e1, e2, e3]

/-- C157: the determinant of a 2×2 matrix. -/
theorem C157_det2 (h : RoundsToNearest p fl) (hp : 1 ≤ p) {pd : ℝ → ℝ → ℝ → ℝ → ℝ} (hpd : Fl.IsProdDiff fl pd) (A : Matrix (Fin 2) (Fin 2) ℝ)
    (hA : ∀ i j, Grid e (A i j)) (hs : absPerm A ≤ (2 : ℝ) ^ ((p : ℤ) + (e + e))) : Fl.det2 pd A = A.det := by
  rw [Fl.det2, pd_exact h hp hpd (grid_mul (hA 0 0) (hA 1 1)) (grid_mul (hA 1 0) (hA 0 1)) (by
    refine le_trans (le_of_eq ?_) hs
    unfold absPerm
    rw [permanent_two]
    simp), Matrix.det_fin_two]
  ring

private theorem one_grid_le {x : ℝ} (hx : Grid e x) (h0 : x ≠ 0) : (2 : ℝ) ^ e ≤ |x| := by
  obtain ⟨m, rfl⟩ := hx
  have h2 := two_zpow_pos e
  have hm : 1 ≤ |m| := Int.one_le_abs (by rintro rfl; simp at h0)
  have : (1 : ℝ) ≤ |(m : ℝ)| := by exact_mod_cast hm
  rw [abs_mul, abs_of_pos h2]
  nlinarith

/-- C157: the determinant of a 3×3 matrix, either layout. A minor may be too large for exact arithmetic if its factor is zero. -/
theorem C157_det3 (h : RoundsToNearest p fl) (hp : 1 ≤ p) {pd : ℝ → ℝ → ℝ → ℝ → ℝ} (hpd : Fl.IsProdDiff fl pd) (tb : RTree (batchSize 3 false)) (ts : RTree (3 + 1))
    (htb : tb.Valid) (hts : ts.Valid) (L : Layout) (A : Matrix (Fin 3) (Fin 3) ℝ) (hA : ∀ i j, Grid e (A i j))
    (hs : absPerm A ≤ (2 : ℝ) ^ ((p : ℤ) + (e + (e + e)))) : Fl.det3Stripes c pk fl pd tb ts (stripesOf L A) = A.det := by
  have key : ∀ s : Matrix (Fin 3) (Fin 3) ℝ, (∀ i j, Grid e (s i j)) → absPerm s ≤ (2 : ℝ) ^ ((p : ℤ) + (e + (e + e))) →
      Fl.det3Stripes c pk fl pd tb ts s = s.det := by
    intro s hg hb
    have f0 : fl 0 = 0 := h.fixed ⟨0, 0, by simp, by positivity⟩
    let a := sw (s 1) ![0, 2, 1]
    let b := sw (s 2) ![1, 0, 2]
    let a' := sw (s 1) ![1, 0, 2]
    let b' := sw (s 2) ![0, 2, 1]
    let z := sw (s 0) ![2, 1, 0]
    have hb' : ∑ i, |z i| * (|a i| * |b i| + |a' i| * |b' i|) ≤ (2 : ℝ) ^ ((p : ℤ) + (e + (e + e))) := by
      refine le_trans (le_of_eq ?_) hb
      unfold absPerm
      rw [permanent_three, Fin.sum_univ_three]
      simp [sw, z, a, b, a', b']
      ring
    have hz : ∀ i, Grid e (z i) := fun i => hg 0 _
    have gm : ∀ i, Grid (e + e) (a i * b i - a' i * b' i) := fun i => grid_sub (grid_mul (hg 1 _) (hg 2 _)) (grid_mul (hg 1 _) (hg 2 _))
    have one : ∀ i, |z i| * (|a i| * |b i| + |a' i| * |b' i|) ≤ (2 : ℝ) ^ ((p : ℤ) + (e + (e + e))) := fun i =>
      (Finset.single_le_sum (f := fun i => |z i| * (|a i| * |b i| + |a' i| * |b' i|)) (fun _ _ => by positivity) (Finset.mem_univ i)).trans hb'
    have le1 : ∀ i, |z i * (a i * b i - a' i * b' i)| ≤ |z i| * (|a i| * |b i| + |a' i| * |b' i|) := fun i => by
      rw [abs_mul]
      refine mul_le_mul_of_nonneg_left ?_ (abs_nonneg _)
      have := abs_sub (a i * b i) (a' i * b' i)
      rwa [abs_mul, abs_mul] at this
    have el : ∀ i, Fl.stripeMul fl z (Fl.vpd pd a b a' b') i = z i * (a i * b i - a' i * b' i) := fun i => by
      simp only [Fl.stripeMul, Fl.vpd]
      by_cases h0 : z i = 0
      · rw [h0, zero_mul, zero_mul, f0]
      have h1 := one_grid_le (hz i) h0
      have hpd' : pd (a i) (b i) (a' i) (b' i) = a i * b i - a' i * b' i := by
        refine pd_exact h hp hpd (grid_mul (hg 1 _) (hg 2 _)) (grid_mul (hg 1 _) (hg 2 _)) ?_
        have h2 := two_zpow_pos e
        have h3 := one i
        rw [show (p : ℤ) + (e + (e + e)) = e + ((p : ℤ) + (e + e)) by ring, zpow_add₀ (by norm_num)] at h3
        have h4 : (2 : ℝ) ^ e * (|a i| * |b i| + |a' i| * |b' i|) ≤ |z i| * (|a i| * |b i| + |a' i| * |b' i|) := mul_le_mul_of_nonneg_right h1 (by positivity)
        exact le_of_mul_le_mul_left (h4.trans h3) h2
      rw [hpd']
      exact grid_fix h hp (grid_mul (hz i) (gm i)) ((le1 i).trans (one i))
    have := C157_sum (e := e + (e + e)) h hp tb ts htb hts (Vec.ofFn (Fl.stripeMul fl z (Fl.vpd pd a b a' b')) : Vec c ℝ 3 pk)
      (fun i => by rw [Vec.get_ofFn, el]; exact grid_mul (hz i) (gm i)) (by
        simp only [Vec.get_ofFn, el]
        exact (Finset.sum_le_sum fun i _ => le1 i).trans hb')
    simp only [Vec.get_ofFn, el] at this
    refine Eq.trans this ?_
    rw [Matrix.det_fin_three, Fin.sum_univ_three]
    simp [sw, z, a, b, a', b']
    ring
  cases L
  · exact key A hA hs
  · rw [← Matrix.det_transpose A]
    exact key A.transpose (fun i j => hA j i) (by rw [absPerm_transpose]; exact hs)

/-- C157: each component of `Cross` in space. -/
theorem C157_cross (h : RoundsToNearest p fl) (hp : 1 ≤ p) (conv : Bool) (junk : ℕ → ℝ) (a b : Vec c ℝ 3 pk) (ha : ∀ i, Grid e (a.get i))
    (hb : ∀ i, Grid f (b.get i)) (haf : ∀ i, fl (a.get i) = a.get i) (i : Fin 3)
    (hs : |a.get (i + 1) * b.get (i + 2)| + |a.get (i + 2) * b.get (i + 1)| ≤ (2 : ℝ) ^ ((p : ℤ) + (e + f))) :
    (Fl.cross3 fl conv junk a b).get i = crossProduct a.get b.get i := by
  have f0 : fl 0 = 0 := h.fixed ⟨0, 0, by simp, by positivity⟩
  have key : ∀ j k j' k' : Fin 3, |a.get j * b.get k| + |a.get j' * b.get k'| ≤ (2 : ℝ) ^ ((p : ℤ) + (e + f)) →
      fl (fl (a.get j * b.get k + fl (b.get k' * fl (a.get j' * -1))) + fl (b.get k' * fl (a.get j' * -1) + fl (fl (b.get k' * fl (a.get j' * -1)) * -1))) =
        a.get j * b.get k - a.get j' * b.get k' := by
    intro j k j' k' hs
    have g1 := grid_mul (ha j) (hb k)
    have g2 := grid_mul (ha j') (hb k')
    have g3 : Grid (e + f) (-(a.get j' * b.get k')) := by
      have := grid_sub (grid_zero (e := e + f)) g2
      rwa [zero_sub] at this
    have n1 := abs_nonneg (a.get j * b.get k)
    have n2 := abs_nonneg (a.get j' * b.get k')
    have e1 : fl (a.get j' * -1) = -a.get j' := by rw [mul_neg_one, h.odd, haf]
    have e2 : fl (-(a.get j' * b.get k')) = -(a.get j' * b.get k') := grid_fix h hp g3 (by rw [abs_neg]; linarith)
    have e3 : fl (a.get j' * b.get k') = a.get j' * b.get k' := grid_fix h hp g2 (by linarith)
    have e4 : fl (a.get j * b.get k - a.get j' * b.get k') = a.get j * b.get k - a.get j' * b.get k' :=
      grid_fix h hp (grid_sub g1 g2) ((abs_sub _ _).trans hs)
    rw [e1, mul_neg, mul_comm (b.get k'), e2, mul_neg_one, neg_neg, e3, neg_add_cancel, f0, add_zero, ← sub_eq_add_neg, e4, e4]
  have := key (i + 1) (i + 2) (i + 2) (i + 1) hs
  rw [cross_apply]
  fin_cases i <;>
    simpa [Fl.cross3, Fl.fmta, Fl.add, Fl.fma, Fl.mul, Fl.neg, Vec.opScalar, Vec.get_doBinary, Vec.get_doTernary, Vec.get_fill, C05_read] using this

private theorem four_exact (h : RoundsToNearest p fl) (hp : 1 ≤ p) {x0 x1 x2 x3 B : ℝ} (h0 : Grid e x0) (h1 : Grid e x1) (h2 : Grid e x2) (h3 : Grid e x3)
    (hB : |x0| + |x1| + |x2| + |x3| ≤ B) (hs : B ≤ (2 : ℝ) ^ ((p : ℤ) + e)) : fl (fl (fl (fl x0 + fl x1) + fl x2) + fl x3) = x0 + x1 + x2 + x3 := by
  have n0 := abs_nonneg x0
  have n1 := abs_nonneg x1
  have n2 := abs_nonneg x2
  have n3 := abs_nonneg x3
  have a1 := abs_add_le x0 x1
  have a2 := abs_add_le (x0 + x1) x2
  have a3 := abs_add_le (x0 + x1 + x2) x3
  rw [grid_fix h hp h0 (by linarith), grid_fix h hp h1 (by linarith), grid_fix h hp h2 (by linarith), grid_fix h hp h3 (by linarith),
    grid_fix h hp (grid_add h0 h1) (by linarith), grid_fix h hp (grid_add (grid_add h0 h1) h2) (by linarith),
    grid_fix h hp (grid_add (grid_add (grid_add h0 h1) h2) h3) (by linarith)]

private theorem grid_neg {x : ℝ} (hx : Grid e x) : Grid e (-x) := by
  have := grid_sub (grid_zero (e := e)) hx
  rwa [zero_sub] at this

/-- C157: products of quaternions. -/
theorem C157_quaternion_mul {l1 l2 : QLayout} (h : RoundsToNearest p fl) (hp : 1 ≤ p) (a : Quat ℝ l1) (b : Quat ℝ l2) (ha : ∀ t, Grid e (a.canonical t))
    (hb : ∀ t, Grid f (b.canonical t)) (haf : ∀ t, fl (a.canonical t) = a.canonical t) (hs : ‖toH a‖ * ‖toH b‖ ≤ (2 : ℝ) ^ ((p : ℤ) + (e + f))) :
    toH (Fl.qmul fl a b) = toH a * toH b := by
  obtain ⟨e0, e1, e2, e3⟩ := qmul_canonical (h.rounding hp) a b haf
  have g0 : Grid e a.s := ha 0
  have g1 : Grid e a.i := ha 1
  have g2 : Grid e a.j := ha 2
  have g3 : Grid e a.k := ha 3
  have k0 : Grid f b.s := hb 0
  have k1 : Grid f b.i := hb 1
  have k2 : Grid f b.j := hb 2
  have k3 : Grid f b.k := hb 3
  rw [norm_eq, norm_eq] at hs
  simp only [re_toH, imI_toH, imJ_toH, imK_toH] at hs
  have c0 := cauchy4 a.s a.i a.j a.k b.s b.i b.j b.k
  have c1 := cauchy4 a.s a.i a.j a.k b.i b.s b.k b.j
  have c2 := cauchy4 a.s a.i a.j a.k b.j b.k b.s b.i
  have c3 := cauchy4 a.s a.i a.j a.k b.k b.j b.i b.s
  rw [show b.i ^ 2 + b.s ^ 2 + b.k ^ 2 + b.j ^ 2 = b.s ^ 2 + b.i ^ 2 + b.j ^ 2 + b.k ^ 2 by ring] at c1
  rw [show b.j ^ 2 + b.k ^ 2 + b.s ^ 2 + b.i ^ 2 = b.s ^ 2 + b.i ^ 2 + b.j ^ 2 + b.k ^ 2 by ring] at c2
  rw [show b.k ^ 2 + b.j ^ 2 + b.i ^ 2 + b.s ^ 2 = b.s ^ 2 + b.i ^ 2 + b.j ^ 2 + b.k ^ 2 by ring] at c3
  rw [four_exact h hp (grid_mul g0 k0) (grid_neg (grid_mul g1 k1)) (grid_neg (grid_mul g2 k2)) (grid_neg (grid_mul g3 k3)) (by simpa only [abs_neg] using c0) hs] at e0
  rw [four_exact h hp (grid_mul g0 k1) (grid_mul g1 k0) (grid_mul g2 k3) (grid_neg (grid_mul g3 k2)) (by simpa only [abs_neg] using c1) hs] at e1
  rw [four_exact h hp (grid_mul g0 k2) (grid_neg (grid_mul g1 k3)) (grid_mul g2 k0) (grid_mul g3 k1) (by simpa only [abs_neg] using c2) hs] at e2
  rw [four_exact h hp (grid_mul g0 k3) (grid_mul g1 k2) (grid_neg (grid_mul g2 k1)) (grid_mul g3 k0) (by simpa only [abs_neg] using c3) hs] at e3
  apply Quaternion.ext
  · rw [Quaternion.re_mul]; simp only [re_toH, imI_toH, imJ_toH, imK_toH]; rw [e0]; ring
  · rw [Quaternion.imI_mul]; simp only [re_toH, imI_toH, imJ_toH, imK_toH]; rw [e1]; ring
  · rw [Quaternion.imJ_mul]; simp only [re_toH, imI_toH, imJ_toH, imK_toH]; rw [e2]; ring
  · rw [Quaternion.imK_mul]; simp only [re_toH, imI_toH, imJ_toH, imK_toH]; rw [e3]; ring

private theorem not_float (hp : 1 ≤ p) : ¬ IsFloat p ((2 : ℝ) ^ p + 1) := by
  rintro ⟨m, e, h1, h2⟩
  rcases le_or_gt e 0 with he | he
  · have h3 : (2 : ℝ) ^ e ≤ 1 := zpow_le_one_of_nonpos₀ (by norm_num) he
    have h4 : (|m| : ℝ) < 2 ^ p := by exact_mod_cast h2
    have h5 := le_abs_self (m : ℝ)
    have h6 := two_zpow_pos e
    nlinarith [abs_nonneg (m : ℝ)]
  · obtain ⟨q, rfl⟩ : ∃ q : ℕ, e = q + 1 := ⟨(e - 1).toNat, by omega⟩
    have h3 : (2 : ℤ) ^ p + 1 = m * 2 ^ (q + 1) := by
      have : ((2 : ℝ) ^ p + 1) = m * 2 ^ (q + 1) := by rw [h1]; norm_cast
      exact_mod_cast this
    obtain ⟨t, rfl⟩ : ∃ t, p = t + 1 := ⟨p - 1, by omega⟩
    rw [pow_succ, pow_succ, ← mul_assoc] at h3
    omega

/-- C157: the bound is sharp. `2 ^ p` and `1` are floats, but no `Sum` of them is exact. -/
theorem C157_sharp (h : RoundsToNearest p fl) (hp : 1 ≤ p) (tb : RTree (batchSize 2 false)) (ts : RTree 3) (v : Vec c ℝ 2 pk) (hv : v.get = ![(2 : ℝ) ^ p, 1]) :
    (∀ i, fl (v.get i) = v.get i) ∧ Fl.sum fl tb ts v ≠ ∑ i, v.get i := by
  have f1 : ∀ i, IsFloat p (v.get i) := fun i => by
    rw [hv]; fin_cases i
    · exact ⟨1, p, by simp, by rw [abs_one]; exact one_lt_pow₀ (by norm_num) (by omega)⟩
    · exact ⟨1, 0, by simp, by rw [abs_one]; exact one_lt_pow₀ (by norm_num) (by omega)⟩
  have f0 : IsFloat p 0 := ⟨0, 0, by simp, by positivity⟩
  have ft : ∀ {N : ℕ} (t : RTree N) (b : Fin N → ℝ), (∀ i, IsFloat p (b i)) → IsFloat p (t.eval (fun x y => fl (x + y)) b) := fun t b hb => by
    cases t with
    | leaf i => exact hb i
    | node l r => exact h.mem _
  refine ⟨fun i => h.fixed (f1 i), fun hs => not_float hp ?_⟩
  have e1 : ∑ i, v.get i = (2 : ℝ) ^ p + 1 := by rw [hv]; simp
  rw [← e1, ← hs]
  unfold Fl.sum
  split
  · refine ft tb _ fun l => ?_
    unfold Vec.fillMasked
    split
    · exact f1 ⟨l.val, by omega⟩
    · dsimp only
      split
      · exact f1 ⟨l.val, by omega⟩
      · exact f0
  · refine ft ts _ fun l => ?_
    split
    · exact f1 _
    · exact f0

/-- Single precision: an inner product of vectors of halves, which is exact in any order. -/
example (c : Cfg) (pk conv : Bool) (tb : RTree (batchSize 3 false)) (ts : RTree 4) (htb : tb.Valid) (hts : ts.Valid) (a b : Vec c ℝ 3 pk)
    (ha : a.get = ![1 / 2, -7 / 2, 3000]) (hb : b.get = ![4, 1000, 3]) :
    Fl.dot (flAway 24) conv tb ts a b = 5502 := by
  have := C157_dot (e := -1) (f := 0) (flAway_roundsToNearest (p := 24) (by norm_num)) (by norm_num) conv tb ts htb hts a b
    (fun i => by rw [ha]; fin_cases i; exacts [⟨1, by norm_num⟩, ⟨-7, by norm_num⟩, ⟨6000, by norm_num⟩])
    (fun i => by rw [hb]; fin_cases i; exacts [⟨4, by norm_num⟩, ⟨1000, by norm_num⟩, ⟨3, by norm_num⟩])
    (by rw [ha, hb]; simp [Fin.sum_univ_succ]; norm_num [abs_of_pos, abs_of_neg])
  rw [this, ha, hb]
  simp [Fin.sum_univ_succ]
  norm_num


/-- Single precision: a quaternion of integers squared. -/
example : toH (Fl.qmul (flAway 24) (mk4 .vectorFirst 1 2 (-3) 4) (mk4 .scalarFirst 1 2 (-3) 4)) =
    toH (mk4 .vectorFirst (1 : ℝ) 2 (-3) 4) * toH (mk4 .scalarFirst (1 : ℝ) 2 (-3) 4) := by
  have hR := flAway_roundsToNearest (p := 24) (by norm_num)
  have g : ∀ l t, Grid 0 ((mk4 l (1 : ℝ) 2 (-3) 4).canonical t) := fun l t => by
    rw [canonical_mk4]; fin_cases t; exacts [⟨1, by norm_num⟩, ⟨2, by norm_num⟩, ⟨-3, by norm_num⟩, ⟨4, by norm_num⟩]
  have n : ∀ l, ‖toH (mk4 l (1 : ℝ) 2 (-3) 4)‖ ≤ 8 := fun l => by
    have := canonical_mk4 (l := l) (1 : ℝ) 2 (-3) 4
    rw [norm_eq]
    simp only [re_toH, imI_toH, imJ_toH, imK_toH, s_eq, i_eq, j_eq, k_eq, this]
    refine Real.sqrt_le_iff.2 ⟨by norm_num, ?_⟩
    simp
    norm_num
  refine C157_quaternion_mul (e := 0) (f := 0) hR (by norm_num) _ _ (g _) (g _) (fun t => hR.fixed (isFloat_of_grid (by norm_num) (g _ t) ?_))
    ((mul_le_mul (n _) (n _) (norm_nonneg _) (by norm_num)).trans (by norm_num))
  rw [canonical_mk4]; fin_cases t <;> norm_num

/-- Single precision: a cross product of integers. -/
example (c : Cfg) (pk conv : Bool) (junk : ℕ → ℝ) (a b : Vec c ℝ 3 pk) (ha : a.get = ![1, -2, 3000]) (hb : b.get = ![4, 1000, 5]) :
    (Fl.cross3 (flAway 24) conv junk a b).get 0 = -3000010 := by
  have hR := flAway_roundsToNearest (p := 24) (by norm_num)
  have g : ∀ i, Grid 0 (a.get i) := fun i => by rw [ha]; fin_cases i; exacts [⟨1, by norm_num⟩, ⟨-2, by norm_num⟩, ⟨3000, by norm_num⟩]
  rw [C157_cross (e := 0) (f := 0) hR (by norm_num) conv junk a b g
    (fun i => by rw [hb]; fin_cases i; exacts [⟨4, by norm_num⟩, ⟨1000, by norm_num⟩, ⟨5, by norm_num⟩])
    (fun i => hR.fixed (isFloat_of_grid (by norm_num) (g i) (by rw [ha]; fin_cases i <;> norm_num))) 0 (by
      rw [ha, hb, zero_add, zero_add]
      simp
      norm_num), cross_apply, ha, hb]
  simp
  norm_num

/-- Single precision: the determinant of a matrix whose first minor is too large for exact arithmetic but multiplied by zero. -/
example (c : Cfg) (pk : Bool) (L : Layout) (tb : RTree (batchSize 3 false)) (ts : RTree (3 + 1)) (htb : tb.Valid) (hts : ts.Valid) :
    Fl.det3Stripes c pk (flAway 24) (fun a b c d => flAway 24 (flAway 24 (a * b) - c * d)) tb ts (stripesOf L !![0, 2, 0; 3, 8000, 1; 5, 1, 9000]) =
      !![(0 : ℝ), 2, 0; 3, 8000, 1; 5, 1, 9000].det := by
  refine C157_det3 (e := 0) (flAway_roundsToNearest (p := 24) (by norm_num)) (by norm_num) (fun a b c d => Or.inr (Or.inr rfl)) tb ts htb hts L _ (fun i j => ?_) ?_
  · fin_cases i <;> fin_cases j
    exacts [⟨0, by norm_num⟩, ⟨2, by norm_num⟩, ⟨0, by norm_num⟩, ⟨3, by norm_num⟩, ⟨8000, by norm_num⟩, ⟨1, by norm_num⟩, ⟨5, by norm_num⟩, ⟨1, by norm_num⟩,
      ⟨9000, by norm_num⟩]
  · unfold absPerm
    rw [permanent_three]
    simp [Matrix.map_apply, Matrix.of_apply, Matrix.cons_val]
    norm_num

end Mathter.Props
