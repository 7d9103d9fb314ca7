import Mathlib.Analysis.Complex.Basic
import Mathlib.LinearAlgebra.Matrix.Notation
import Verif.Model.Elementwise
import Verif.Props.Matrix
import Verif.Props.Swizzle

/-!
# Properties C86–C90: order changes, elementwise functions, compound assignments, comparisons, absolute values of integers
-/

namespace Mathter.Props
open Mathter
universe u v
variable {K : Type u} {A : Type u} {B : Type v} {c cR : Cfg} {r k n dim dim2 : ℕ} {o : Order} {L L' : Layout} {p p1 p2 : Bool}

/-! ## C86: changing the order of a matrix -/

/-- Specification: the linear map on vectors that a square matrix stands for in its order. -/
def applyTo [NonUnitalNonAssocSemiring K] (o : Order) (M : Matrix (Fin n) (Fin n) K) (x : Fin n → K) : Fin n → K :=
  match o with
  | .follow => Matrix.vecMul x M
  | .precede => Matrix.mulVec M x

/-- C86: `SetOrder<d>(m, true)` and `FlipOrder(m, true)` keep the transform of the matrix. -/
theorem C86_preserve [CommSemiring K] (d : Order) (m0 : Mat c K n n d L p) (m1 : Mat c K n n o.flip L p) (m : Mat c K n n o L p) (x : Fin n → K) :
    applyTo d (view (Mat.setOrder d m0 m)) x = applyTo o (view m) x ∧
    applyTo o.flip (view (Mat.flipOrder m1 m)) x = applyTo o (view m) x := by
  have hf : view (Mat.flipOrder m1 m) = (view m).transpose := C21_convert_order m1 m
  constructor
  · cases d <;> cases o
    · rfl
    · have : view (Mat.setOrder .follow m0 m) = (view m).transpose := C21_convert_order (o := .precede) m0 m
      rw [this]; simp [applyTo, Matrix.vecMul_transpose]
    · have : view (Mat.setOrder .precede m0 m) = (view m).transpose := C21_convert_order (o := .follow) m0 m
      rw [this]; simp [applyTo, Matrix.mulVec_transpose]
    · rfl
  · rw [hf]
    cases o
    · simp [applyTo, Matrix.mulVec_transpose]
    · simp [applyTo, Matrix.vecMul_transpose]

/-- C86: the same for matrices that are not square, through the products of the library: the flipped matrix transforms every vector alike. -/
theorem C86_preserve_products [CommSemiring K] [NeZero k] (conv : Bool) (tb : RTree (batchSize k false)) (ts : RTree k) (htb : tb.Valid) (hts : ts.Valid)
    (v0 : Vec c K n (p && p1)) (f0 : Mat c K k n .follow L.flip p1) (m0 : Mat c K n k .precede L p1) (v : Vec c K k p) (m : Mat c K k n .follow L p1)
    (f1 : Mat c K k n .follow L.flip p1) (m1 : Mat c K k n .follow L p1) (w : Mat c K n k .precede L p1) :
    Mat.mulVec conv tb ts v0 f0 (Mat.flipOrder (o := .follow) m0 m) v = Mat.vecMul conv tb ts v0 v m ∧
    Mat.vecMul conv tb ts v0 v (Mat.flipOrder (o := .precede) m1 w) = Mat.mulVec conv tb ts v0 f1 w v := by
  have h1 : view (Mat.flipOrder (o := .follow) m0 m) = (view m).transpose := C21_convert_order (o := .follow) m0 m
  have h2 : view (Mat.flipOrder (o := .precede) m1 w) = (view w).transpose := C21_convert_order (o := .precede) m1 w
  constructor
  · rw [C24_mul_vec _ _ _ htb hts, C24_vec_mul _ _ _ htb hts, h1, Matrix.mulVec_transpose]
  · rw [C24_vec_mul _ _ _ htb hts, C24_mul_vec _ _ _ htb hts, h2, Matrix.vecMul_transpose]

/-- C86: with `false` all elements stay in place, so the matrix now stands for the transpose of its former transform when the order changes. -/
theorem C86_keep [CommSemiring K] (d : Order) (m : Mat c K n n o L p) (x : Fin n → K) :
    view (Mat.setOrderKeep d m) = view m ∧ view (Mat.flipOrderKeep m) = view m ∧
    applyTo o.flip (view (Mat.flipOrderKeep m)) x = applyTo o (view m).transpose x := by
  have h1 : view (Mat.setOrderKeep d m) = view m := by cases L <;> rfl
  have h2 : view (Mat.flipOrderKeep m) = view m := by cases L <;> rfl
  refine ⟨h1, h2, ?_⟩
  rw [h2]
  cases o <;> simp [applyTo, Matrix.vecMul_transpose, Matrix.mulVec_transpose]

/-- C86: the storage, padding included, is untouched by the `false` variants. -/
theorem C86_keep_storage (d : Order) (m : Mat c K n n o L p) :
    (Mat.setOrderKeep d m).stripes = m.stripes ∧ (Mat.flipOrderKeep m).stripes = m.stripes := ⟨rfl, rfl⟩

/-- Non-vacuity: a matrix whose transform differs from that of its transpose. -/
example : applyTo .follow !![(0 : ℤ), 1; 0, 0] ![1, 0] ≠ applyTo .precede !![(0 : ℤ), 1; 0, 0] ![1, 0] := by
  intro h
  have := congrFun h 1
  revert this
  simp [applyTo, Matrix.vecMul, Matrix.mulVec, dotProduct]

/-! ## C87: elementwise functions -/

section
variable {𝕜 : Type u} [RCLike 𝕜]

private theorem get_mapStripesTo (func : ∀ {d : ℕ}, Vec c A d p → Vec cR B d p) (f : A → B)
    (hf : ∀ {d : ℕ} (v : Vec c A d p) (i : Fin d), (func v).get i = f (v.get i)) (m0 : Mat cR B r n o L p) (m : Mat c A r n o L p) (i : Fin r) (j : Fin n) :
    (Mat.mapStripesTo func m0 m).get i j = f (m.get i j) := by
  apply Mat.get_of_stripes f m
  intro s t
  unfold Mat.mapStripesTo
  rw [Mat.stripeLoopMat (fun s => func (m.stripes s)), hf]

/-- C87: a vector is its real part plus `i` times its imaginary part, its conjugate is the difference, and the absolute value is the Euclidean norm of
the pair; for any configuration and packing. -/
theorem C87_vector (conv1 conv2 conv3 conv4 : Bool) (v : Vec c 𝕜 dim p) (i : Fin dim) :
    ((Vec.real conv1 v : Vec cR ℝ dim p).get i : 𝕜) + ((Vec.imag conv2 v : Vec cR ℝ dim p).get i : 𝕜) * RCLike.I = v.get i ∧
    ((Vec.real conv1 v : Vec cR ℝ dim p).get i : 𝕜) - ((Vec.imag conv2 v : Vec cR ℝ dim p).get i : 𝕜) * RCLike.I = (Vec.conj conv3 v).get i ∧
    0 ≤ (Vec.abs conv4 v : Vec cR ℝ dim p).get i ∧
    (Vec.abs conv4 v : Vec cR ℝ dim p).get i ^ 2 =
      (Vec.real conv1 v : Vec cR ℝ dim p).get i ^ 2 + (Vec.imag conv2 v : Vec cR ℝ dim p).get i ^ 2 := by
  have e1 : (Vec.real conv1 v : Vec cR ℝ dim p).get i = RCLike.re (v.get i) := by simp [Vec.real]
  have e2 : (Vec.imag conv2 v : Vec cR ℝ dim p).get i = RCLike.im (v.get i) := by simp [Vec.imag]
  have e3 : (Vec.conj conv3 v).get i = star (v.get i) := by simp [Vec.conj]
  have e4 : (Vec.abs conv4 v : Vec cR ℝ dim p).get i = ‖v.get i‖ := by simp [Vec.abs]
  rw [e1, e2, e3, e4]
  refine ⟨RCLike.re_add_im _, ?_, norm_nonneg _, ?_⟩
  · rw [RCLike.star_def, RCLike.conj_eq_re_sub_im]
  · rw [RCLike.norm_sq_eq_def]; ring

/-- C87: for a real vector, the real part is the vector itself, the imaginary part zero, and `Abs` is the larger of `x` and `-x`. -/
theorem C87_vector_real (conv1 conv2 conv3 conv4 : Bool) (v : Vec c ℝ dim p) (i : Fin dim) :
    (Vec.real conv1 v : Vec cR ℝ dim p).get i = v.get i ∧ (Vec.imag conv2 v : Vec cR ℝ dim p).get i = 0 ∧ (Vec.conj conv3 v).get i = v.get i ∧
    (Vec.abs conv4 v : Vec cR ℝ dim p).get i = max (v.get i) (-v.get i) := by
  refine ⟨by simp [Vec.real], by simp [Vec.imag], by simp [Vec.conj], by simp [Vec.abs, abs_eq_max_neg]⟩

/-- C87: `Sqrt` gives the non-negative square roots. -/
theorem C87_sqrt (conv : Bool) (v : Vec c ℝ dim p) (i : Fin dim) (h : 0 ≤ v.get i) :
    0 ≤ (Vec.sqrt conv v).get i ∧ (Vec.sqrt conv v).get i ^ 2 = v.get i := by
  have e : (Vec.sqrt conv v).get i = Real.sqrt (v.get i) := by simp [Vec.sqrt]
  rw [e]
  exact ⟨Real.sqrt_nonneg _, Real.sq_sqrt h⟩

/-- C87: `Fill` sets every element and forgets the old ones. -/
theorem C87_fill [Zero A] (cast : B → A) (v w : Vec c A dim p) (x : B) :
    (∀ i, (Vec.fillAssign cast v x).get i = cast x) ∧ Vec.fillAssign cast v x = Vec.fillAssign cast w x :=
  ⟨fun i => by simp [Vec.fillAssign], rfl⟩

/-- C87: the same decomposition for matrices, any layout. -/
theorem C87_matrix (conv1 conv2 conv3 conv4 : Bool) (m0 m1 m2 : Mat cR ℝ r n o L p) (m3 : Mat c 𝕜 r n o L p) (m : Mat c 𝕜 r n o L p) (i : Fin r) (j : Fin n) :
    ((view (Mat.real conv1 m0 m) i j : ℝ) : 𝕜) + ((view (Mat.imag conv2 m1 m) i j : ℝ) : 𝕜) * RCLike.I = view m i j ∧
    ((view (Mat.real conv1 m0 m) i j : ℝ) : 𝕜) - ((view (Mat.imag conv2 m1 m) i j : ℝ) : 𝕜) * RCLike.I = view (Mat.conj conv3 m3 m) i j ∧
    0 ≤ view (Mat.abs conv4 m2 m) i j ∧
    view (Mat.abs conv4 m2 m) i j ^ 2 = view (Mat.real conv1 m0 m) i j ^ 2 + view (Mat.imag conv2 m1 m) i j ^ 2 := by
  have e1 : view (Mat.real conv1 m0 m) i j = RCLike.re (view m i j) :=
    get_mapStripesTo _ (fun z : 𝕜 => RCLike.re z) (fun v i => by simp [Vec.real]) m0 m i j
  have e2 : view (Mat.imag conv2 m1 m) i j = RCLike.im (view m i j) :=
    get_mapStripesTo _ (fun z : 𝕜 => RCLike.im z) (fun v i => by simp [Vec.imag]) m1 m i j
  have e3 : view (Mat.conj conv3 m3 m) i j = star (view m i j) :=
    Mat.get_mapStripes _ (fun z : 𝕜 => star z) (fun v i => by simp [Vec.conj]) m3 m i j
  have e4 : view (Mat.abs conv4 m2 m) i j = ‖view m i j‖ :=
    get_mapStripesTo _ (fun z : 𝕜 => ‖z‖) (fun v i => by simp [Vec.abs]) m2 m i j
  rw [e1, e2, e3, e4]
  refine ⟨RCLike.re_add_im _, ?_, norm_nonneg _, ?_⟩
  · rw [RCLike.star_def, RCLike.conj_eq_re_sub_im]
  · rw [RCLike.norm_sq_eq_def]; ring

end

/-- Non-vacuity: the parts of `3 + 4i` and of its conjugate. -/
example : RCLike.re (⟨3, 4⟩ : ℂ) = 3 ∧ RCLike.im (⟨3, 4⟩ : ℂ) = 4 ∧ (0 : ℝ) ≤ 2 := ⟨rfl, rfl, by norm_num⟩

/-- C90: when no element is the smallest value, `Abs` is defined in every configuration and gives the mathematical absolute values. -/
theorem C90_abs_int_partial {w : ℕ} (conv : Bool) (v : Vec c (BitVec w) dim p) (h : ∀ i, v.get i ≠ BitVec.intMin w) :
    ∃ q, Vec.absInt conv v = some q ∧ ∀ i, (q.get i).toInt = |(v.get i).toInt| := by
  have key : ∀ x : BitVec w, x ≠ BitVec.intMin w → (Vec.absLane x).toInt = |x.toInt| := by
    intro x hx
    unfold Vec.absLane
    split
    · rename_i hm
      rw [BitVec.toInt_neg_of_ne_intMin hx]
      have : x.toInt < 0 := by simpa [BitVec.msb_eq_toInt] using hm
      rw [abs_of_neg this]
    · rename_i hm
      have : 0 ≤ x.toInt := by simpa [BitVec.msb_eq_toInt] using hm
      rw [abs_of_nonneg this]
  unfold Vec.absInt
  split
  · rename_i hb
    exact ⟨_, rfl, fun i => by rw [Vec.get_store, Vec.load_eq_get]; exact key _ (h i)⟩
  · have hs : ∀ i, (Vec.absScalar (v.get i)).isSome = true := by intro i; simp [Vec.absScalar, h i]
    refine ⟨_, by rw [Vec.traverseFin, dif_pos hs]; rfl, fun i => ?_⟩
    simp only [Vec.get_ofFn]
    rw [← key _ (h i)]
    simp [Vec.absScalar, h i]

/-- C90 is violated for the smallest integer: with SIMD its absolute value is negative, without SIMD the result is undefined. -/
theorem C90_abs_int_violated :
    ∃ v : Vec Cfg.sse (BitVec 32) 4 false, (∃ q, Vec.absInt true v = some q ∧ ∃ i, (q.get i).toInt < 0) ∧ Vec.absInt false v = none := by
  refine ⟨⟨fun _ => BitVec.intMin 32⟩, ⟨_, by rw [Vec.absInt, dif_pos ⟨by decide, rfl⟩], 0, ?_⟩, ?_⟩
  · rw [Vec.get_store]
    show (Vec.absLane (BitVec.intMin 32)).toInt < 0
    decide
  · rw [Vec.absInt, dif_neg (by simp), Vec.traverseFin, dif_neg]
    · rfl
    · intro h
      have := h 0
      revert this
      simp [Vec.absScalar, Vec.get]

example : ∀ i : Fin 4, (⟨fun _ => 5#32⟩ : Vec Cfg.sse (BitVec 32) 4 false).get i ≠ BitVec.intMin 32 := by intro i; simp [Vec.get]; decide

/-! ## C88: compound assignments of matrices, also of a matrix by itself -/

/-- C88: `a += b`, `a -= b`, `a *= x` and the like give the elements of the corresponding operator, whatever the layouts and packings. -/
theorem C88_elementwise [AddGroup K] (conv : Bool) (f : K → K → K) (jr : Vec c K n p2) (jc : Vec c K r p2) (m0 m1 : Mat c K r n o L (p1 && p2))
    (m2 : Mat c K r n o L (p1 && p1)) (a : Mat c K r n o L p1) (b : Mat c K r n o L' p2) (x : K) (i : Fin r) (j : Fin n) :
    view (Mat.addAssign conv jr jc m0 a b) = view a + view b ∧ view (Mat.subAssign conv jr jc m1 a b) = view a - view b ∧
    view (Mat.opScalarAssign conv f m2 a x) i j = f (view a i j) x := by
  refine ⟨?_, ?_, ?_⟩
  · rw [Mat.addAssign, C21_convert, C26_add]
  · rw [Mat.subAssign, C21_convert, C26_sub]
  · rw [Mat.opScalarAssign, C21_convert, (C26_scalar conv f m2 m2 a x i j).1]

/-- C88: with the matrix itself, or one of its own elements, on the right-hand side, the values before the assignment are used throughout. -/
theorem C88_self [Ring K] (conv : Bool) (jr : Vec c K n p) (jc : Vec c K r p) (m0 m1 m2 : Mat c K r n o L (p && p)) (a : Mat c K r n o L p)
    (s : Fin r) (t : Fin n) :
    view (Mat.addAssign conv jr jc m0 a a) = view a + view a ∧ view (Mat.subAssign conv jr jc m1 a a) = 0 ∧
    view (Mat.opScalarAssign conv (· * ·) m2 a (a.get s t)) = fun i j => view a i j * view a s t := by
  refine ⟨?_, ?_, ?_⟩
  · exact (C88_elementwise conv (· * ·) jr jc m0 m1 m2 a a (a.get s t) s t).1
  · rw [(C88_elementwise conv (· * ·) jr jc m0 m1 m2 a a (a.get s t) s t).2.1, sub_self]
  · funext i j
    exact (C88_elementwise conv (· * ·) jr jc m0 m1 m2 a a (a.get s t) i j).2.2

/-- C88: `a /= b` is defined exactly when no element of `b` is zero, `a /= x` when `x` is not zero, and then divides element by element. -/
theorem C88_div [DecidableEq K] [Zero K] [Div K] (hr : 0 < r) (hn : 0 < n) (conv : Bool) (jr : Vec c K n p2) (jc : Vec c K r p2)
    (m0 : Mat c K r n o L (p1 && p2)) (m1 : Mat c K r n o L (p1 && p1)) (a : Mat c K r n o L p1) (b : Mat c K r n o L' p2) (x : K) :
    ((Mat.divAssign conv jr jc m0 a b).isSome = true ↔ ∀ i j, view b i j ≠ 0) ∧
    (∀ q, Mat.divAssign conv jr jc m0 a b = some q → ∀ i j, view q i j = view a i j / view b i j) ∧
    ((Mat.divScalarAssign conv m1 a x).isSome = true ↔ x ≠ 0) ∧
    (∀ q, Mat.divScalarAssign conv m1 a x = some q → ∀ i j, view q i j = view a i j / x) := by
  have h1 := C26_div conv jr jc m0 a b
  have h2 := C26_div_scalar hr hn conv m1 a x
  refine ⟨by rw [Mat.divAssign, Option.isSome_map]; exact h1.1, ?_, by rw [Mat.divScalarAssign, Option.isSome_map]; exact h2.1, ?_⟩
  · intro q hq i j
    rw [Mat.divAssign, Option.map_eq_some_iff] at hq
    obtain ⟨q', hq', rfl⟩ := hq
    rw [C21_convert]
    exact h1.2 q' hq' i j
  · intro q hq i j
    rw [Mat.divScalarAssign, Option.map_eq_some_iff] at hq
    obtain ⟨q', hq', rfl⟩ := hq
    rw [C21_convert]
    exact h2.2 q' hq' i j

/-- C88: `v *= M` replaces the vector by its transform. -/
theorem C88_vec_mul [CommSemiring K] [NeZero k] (conv : Bool) (tb : RTree (batchSize k false)) (ts : RTree k) (htb : tb.Valid) (hts : ts.Valid)
    (v0 : Vec c K k (p1 && p2)) (v : Vec c K k p1) (m : Mat c K k k .follow L p2) :
    vview (Mat.vecMulAssign conv tb ts v0 v m) = Matrix.vecMul (vview v) (view m) := by
  rw [← C24_vec_mul conv tb ts htb hts v0]
  funext i
  simp [vview, Mat.vecMulAssign]

/-- C88: `v *= M` with a homogeneous coordinate: transform `(v, 1)`, divide by the last element; defined exactly when that is not zero. -/
theorem C88_vec_mul_homogeneous [Field K] [DecidableEq K] (hk : 0 < k) (conv : Bool) (tb : RTree (batchSize (k + 1) false)) (ts : RTree (k + 1))
    (htb : tb.Valid) (hts : ts.Valid) (v0 : Vec c K (k + 1) (p1 && p2)) (q : Bool) (v : Vec c K k p1) (m : Mat c K (k + 1) (k + 1) .follow L p2) :
    let h := Matrix.vecMul (append1 (vview v)) (view m)
    ((Mat.vecMulHomogAssign conv tb ts v0 q v m).isSome = true ↔ h (Fin.last k) ≠ 0) ∧
    ∀ w, Mat.vecMulHomogAssign conv tb ts v0 q v m = some w → ∀ i : Fin k, w.get i = h i.castSucc / h (Fin.last k) := by
  have := C25_homogeneous hk conv tb ts htb hts v0 q v m
  dsimp only at this ⊢
  refine ⟨by rw [Mat.vecMulHomogAssign, Option.isSome_map]; exact this.1, fun w hw i => ?_⟩
  rw [Mat.vecMulHomogAssign, Option.map_eq_some_iff] at hw
  obtain ⟨w', hw', rfl⟩ := hw
  rw [Vec.get_convert]
  exact this.2 w' hw' i

/-- C88: `v *= M` for an affine matrix: linear part and translation. -/
theorem C88_vec_mul_affine [CommSemiring K] (conv : Bool) (tb : RTree (batchSize (k + 1) false)) (ts : RTree (k + 1)) (htb : tb.Valid) (hts : ts.Valid)
    (v0 : Vec c K k (p1 && p2)) (v : Vec c K k p1) (m : Mat c K (k + 1) k .follow L p2) (j : Fin k) :
    (Mat.vecMulAffineAssign conv tb ts v0 v m).get j = (∑ i : Fin k, v.get i * m.get i.castSucc j) + m.get (Fin.last k) j := by
  rw [Mat.vecMulAffineAssign, Vec.get_ofFn, C25_affine conv tb ts htb hts]

/-- C88: unary plus and double negation return the matrix's elements. -/
theorem C88_unary [Ring K] (conv : Bool) (m0 : Mat c K r n o L (p && p)) (m1 : Mat c K r n o L ((p && p) && (p && p))) (a : Mat c K r n o L p) :
    view (Mat.pos a) = view a ∧ view (Mat.neg conv m1 (Mat.neg conv m0 a)) = view a := by
  refine ⟨rfl, ?_⟩
  rw [C26_neg, C26_neg, neg_neg]

/-- Non-vacuity: a valid reduction order for dimension 3, and a nonzero divisor. -/
example : (RTree.node (.leaf 0) (.node (.leaf 1) (.leaf 2)) : RTree 3).Valid ∧ (2 : ℚ) ≠ 0 :=
  ⟨by unfold RTree.Valid; decide, by norm_num⟩

/-! ## C89: comparisons -/

/-- C89: `!=` between vectors and swizzles holds exactly when some element differs, on either side and for any index tuples. -/
theorem C89_ne [Zero K] [BEq K] [LawfulBEq K] (junk junk2 : ℕ → K) (w : Vec c K k p2) (src : Vec c K dim p) (idx : Fin k → Fin dim)
    (src2 : Vec c K dim2 p2) (idx2 : Fin k → Fin dim2) :
    (Swz.neVecSwz junk w src idx = true ↔ ∃ t, w.get t ≠ src.get (idx t)) ∧
    (Swz.neSwzVec junk src idx w = true ↔ ∃ t, src.get (idx t) ≠ w.get t) ∧
    (Swz.neSwzSwz junk junk2 src idx src2 idx2 = true ↔ ∃ t, src.get (idx t) ≠ src2.get (idx2 t)) := by
  refine ⟨?_, ?_, ?_⟩
  · rw [Swz.neVecSwz, Bool.not_eq_true', ← Bool.not_eq_true, C04_eq_vec_swizzle]; simp
  · rw [Swz.neSwzVec, Bool.not_eq_true', ← Bool.not_eq_true]
    simp [Swz.eqSwzVec, Swz.linearize_of_lt]
  · rw [Swz.neSwzSwz, Bool.not_eq_true', ← Bool.not_eq_true, C04_eq_swizzle_swizzle]; simp

/-- C89: comparison of vector and swizzle does not depend on the side. -/
theorem C89_symmetric [Zero K] [BEq K] [LawfulBEq K] (junk junk2 : ℕ → K) (w : Vec c K k p2) (src : Vec c K dim p) (idx : Fin k → Fin dim) :
    Swz.eqVecSwz junk w src idx = Swz.eqSwzVec junk2 src idx w := by
  rw [Bool.eq_iff_iff, C04_eq_vec_swizzle]
  simp only [Swz.eqSwzVec, Swz.linearize_of_lt, List.all_eq_true, List.mem_finRange, forall_const, beq_iff_eq]
  exact ⟨fun h t => (h t).symm, fun h t => (h t).symm⟩

/-- C89: `!=` of matrices, same and opposite orders. -/
theorem C89_matrix_ne [BEq K] [LawfulBEq K] (a : Mat c K r n o L p1) (b : Mat c K r n o L' p2) (b' : Mat c K n r o.flip L' p2) :
    (Mat.ne a b = true ↔ ∃ i j, view a i j ≠ view b i j) ∧ (Mat.neFlip a b' = true ↔ ∃ i j, view a i j ≠ view b' j i) := by
  have h := C21_eq a b b'
  constructor
  · rw [Mat.ne, Bool.not_eq_true', ← Bool.not_eq_true, h.1, ← Matrix.ext_iff]; simp
  · rw [Mat.neFlip, Bool.not_eq_true', ← Bool.not_eq_true, h.2, ← Matrix.ext_iff]; simp

/-- C89: a single letter compares with a scalar like the element it names, from either side; all six operators. -/
theorem C89_letter [LinearOrder K] (src : Vec c K dim p) (i : Fin dim) (x : K) :
    (Swz.cmpScalar .eq src (fun _ => i) x = some true ↔ src.get i = x) ∧ (Swz.scalarCmp .eq x src (fun _ => i) = some true ↔ x = src.get i) ∧
    (Swz.cmpScalar .ne src (fun _ => i) x = some true ↔ src.get i ≠ x) ∧ (Swz.scalarCmp .ne x src (fun _ => i) = some true ↔ x ≠ src.get i) ∧
    (Swz.cmpScalar .lt src (fun _ => i) x = some true ↔ src.get i < x) ∧ (Swz.scalarCmp .lt x src (fun _ => i) = some true ↔ x < src.get i) ∧
    (Swz.cmpScalar .gt src (fun _ => i) x = some true ↔ x < src.get i) ∧ (Swz.scalarCmp .gt x src (fun _ => i) = some true ↔ src.get i < x) ∧
    (Swz.cmpScalar .le src (fun _ => i) x = some true ↔ src.get i ≤ x) ∧ (Swz.scalarCmp .le x src (fun _ => i) = some true ↔ x ≤ src.get i) ∧
    (Swz.cmpScalar .ge src (fun _ => i) x = some true ↔ x ≤ src.get i) ∧ (Swz.scalarCmp .ge x src (fun _ => i) = some true ↔ src.get i ≤ x) := by
  have h : Swz.get src (fun _ : Fin 1 => i) 0 = some (src.get i) := by simp [Swz.get]
  simp only [Swz.cmpScalar, Swz.scalarCmp, h, Option.map_some, Option.some.injEq, Swz.Cmp.eval, decide_eq_true_eq, gt_iff_lt, ge_iff_le, and_self]

/-- C89: every comparison of a letter with a scalar is defined. -/
theorem C89_letter_defined [LinearOrder K] (op : Swz.Cmp) (src : Vec c K dim p) (i : Fin dim) (x : K) :
    (Swz.cmpScalar op src (fun _ => i) x).isSome ∧ (Swz.scalarCmp op x src (fun _ => i)).isSome := by
  simp [Swz.cmpScalar, Swz.scalarCmp, Swz.get]

/-- Non-vacuity: both outcomes occur. -/
example : Swz.cmpScalar .lt (⟨fun l => (l.val : ℤ)⟩ : Vec Cfg.scalar ℤ 3 false) (fun _ => 1) 2 = some true ∧
    Swz.cmpScalar .ge (⟨fun l => (l.val : ℤ)⟩ : Vec Cfg.scalar ℤ 3 false) (fun _ => 1) 2 = some false := by
  constructor <;> rfl

end Mathter.Props
