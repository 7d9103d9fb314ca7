import Verif.Lemmas.Quaternion

/-!
# Properties C44–C48: quaternion arithmetic, rotation of vectors, conversions to and from matrices

`Quat.toH` (Spec/Quaternion.lean) is the mathematical quaternion of Mathlib; statements about products are statements in `ℍ[K]`.
-/

namespace Mathter.Props
open Mathter Quat
open scoped Quaternion
universe u
variable {K : Type u} {l l1 l2 l3 : QLayout}

/-! ## C44 -/

/-- C44: `p * q` is Hamilton's product, for any two layouts. -/
theorem C44_hamilton [CommRing K] (p : Quat K l1) (q : Quat K l2) : (mul p q).toH = p.toH * q.toH := toH_mul p q

/-- C44: the same, component by component. -/
theorem C44_components [CommRing K] (p : Quat K l1) (q : Quat K l2) :
    (mul p q).s = p.s * q.s - p.i * q.i - p.j * q.j - p.k * q.k ∧
    (mul p q).i = p.s * q.i + p.i * q.s + p.j * q.k - p.k * q.j ∧
    (mul p q).j = p.s * q.j - p.i * q.k + p.j * q.s + p.k * q.i ∧
    (mul p q).k = p.s * q.k + p.i * q.j - p.j * q.i + p.k * q.s := by
  have h := toH_mul p q
  refine ⟨?_, ?_, ?_, ?_⟩
  · simpa using congrArg (fun x : ℍ[K] => x.re) h
  · simpa using congrArg (fun x : ℍ[K] => x.imI) h
  · simpa using congrArg (fun x : ℍ[K] => x.imJ) h
  · simpa using congrArg (fun x : ℍ[K] => x.imK) h

/-- C44: the product is associative. -/
theorem C44_assoc [CommRing K] (p : Quat K l1) (q : Quat K l2) (r : Quat K l3) : mul (mul p q) r = mul p (mul q r) := by
  apply toH_inj; rw [toH_mul, toH_mul, toH_mul, toH_mul, mul_assoc]

/-- C44: the product distributes over sums and differences on both sides. -/
theorem C44_distrib [CommRing K] (p : Quat K l1) (q : Quat K l2) (r : Quat K l3) :
    mul p (add q r) = add (mul p q) (mul p r) ∧ mul (add p q) r = add (mul p r) (mul q r) ∧
    mul p (sub q r) = sub (mul p q) (mul p r) ∧ mul (sub p q) r = sub (mul p r) (mul q r) := by
  refine ⟨?_, ?_, ?_, ?_⟩ <;> apply toH_inj <;> simp only [toH_mul, toH_add, toH_sub, mul_add, add_mul, mul_sub, sub_mul]

/-- C44: `Quaternion(1)` is the unit. -/
theorem C44_one [CommRing K] (q : Quat K l) : mul (mk4 l 1 0 0 0) q = q ∧ mul q (mk4 l2 1 0 0 0) = q := by
  have h : ∀ l', (mk4 l' (1 : K) 0 0 0).toH = 1 := fun l' => by rw [toH_mk4]; rfl
  constructor <;> apply toH_inj <;> rw [toH_mul, h] <;> simp

/-- C44: `i*i = j*j = k*k = i*j*k = -1`. -/
theorem C44_units [CommRing K] :
    mul (mk4 l1 (0 : K) 1 0 0) (mk4 l2 0 1 0 0) = mk4 l1 (-1) 0 0 0 ∧ mul (mk4 l1 (0 : K) 0 1 0) (mk4 l2 0 0 1 0) = mk4 l1 (-1) 0 0 0 ∧
    mul (mk4 l1 (0 : K) 0 0 1) (mk4 l2 0 0 0 1) = mk4 l1 (-1) 0 0 0 ∧
    mul (mul (mk4 l1 (0 : K) 1 0 0) (mk4 l2 0 0 1 0)) (mk4 l3 0 0 0 1) = mk4 l1 (-1) 0 0 0 := by
  refine ⟨?_, ?_, ?_, ?_⟩ <;> apply toH_inj <;> apply Quaternion.ext <;> simp [toH_mul, s_eq, i_eq, j_eq, k_eq]

/-- C44: sums, differences and scalar multiples act on every component. Missing: scalars of a wider type (`C44_mixed_scalar_violated`). -/
theorem C44_componentwise_partial [CommRing K] (p : Quat K l1) (q : Quat K l2) (a : K) :
    (add p q).canonical = p.canonical + q.canonical ∧ (sub p q).canonical = p.canonical - q.canonical ∧
    (mulScalar p a).canonical = (fun t => p.canonical t * a) ∧ (scalarMul a p).canonical = (fun t => a * p.canonical t) ∧
    (addScalar p a).canonical = p.canonical + ![a, 0, 0, 0] ∧ (subScalar p a).canonical = p.canonical - ![a, 0, 0, 0] ∧
    (scalarAdd id a p).canonical = ![a, 0, 0, 0] + p.canonical ∧ (scalarSub id a p).canonical = ![a, 0, 0, 0] - p.canonical := by
  refine ⟨?_, ?_, rfl, rfl, ?_, ?_, ?_, ?_⟩ <;> simp [add, sub, addScalar, subScalar, scalarAdd, scalarSub]

/-- C44: dividing by a nonzero scalar acts on every component. -/
theorem C44_div [Field K] (p : Quat K l) (a : K) (ha : a ≠ 0) :
    ∀ t, (divScalar p a).canonical t * a = p.canonical t := fun _ => div_mul_cancel₀ _ ha

/-- C44: writing the canonical elements defines the quaternion whatever it contained before, and reading them returns what was written. -/
theorem C44_canonical_write (q q' : Quat K l) (v : Fin 4 → K) : setCanonical q v = setCanonical q' v ∧ (setCanonical q v).canonical = v :=
  ⟨ext_canonical (by simp), by simp⟩

/-- C44: changing the layout changes neither the components nor the result of any product; a round trip is the identity. -/
theorem C44_layout [CommRing K] (p : Quat K l1) (q : Quat K l2) :
    (convert l3 p).s = p.s ∧ (convert l3 p).i = p.i ∧ (convert l3 p).j = p.j ∧ (convert l3 p).k = p.k ∧
    convert l1 (convert l3 p) = p ∧ mul p (convert l3 q) = mul p q ∧ mul (convert l3 p) q = convert l3 (mul p q) := by
  refine ⟨?_, ?_, ?_, ?_, ext_canonical (by simp), ?_, ?_⟩
  · simp [s_eq]
  · simp [i_eq]
  · simp [j_eq]
  · simp [k_eq]
  · apply toH_inj; simp [toH_mul, toH_convert]
  · apply toH_inj; simp [toH_mul, toH_convert]

/-- C44: `==` compares the components whatever the layouts. -/
theorem C44_eq [CommRing K] [DecidableEq K] (p : Quat K l1) (q : Quat K l2) : eq p q = true ↔ p.toH = q.toH := by
  rw [eq, decide_eq_true_iff]
  constructor
  · intro h
    apply Quaternion.ext
    · exact congrFun h 0
    · exact congrFun h 1
    · exact congrFun h 2
    · exact congrFun h 3
  · intro h
    funext t
    fin_cases t
    · exact congrArg (fun x : ℍ[K] => x.re) h
    · exact congrArg (fun x : ℍ[K] => x.imI) h
    · exact congrArg (fun x : ℍ[K] => x.imJ) h
    · exact congrArg (fun x : ℍ[K] => x.imK) h

/-- C44 for mixed element types: `scalar + quaternion` first narrows the scalar to the quaternion's type, so `0.5 + Quaternion<int>(1)`
is `1`, while `Quaternion<int>(1) + 0.5` is computed in the common type. -/
theorem C44_mixed_scalar_violated :
    ∃ (a : ℚ) (q : Quat ℤ .scalarFirst), (((scalarAdd (fun x : ℚ => ⌊x⌋) a q).s : ℤ) : ℚ) ≠ a + q.s := by
  refine ⟨1 / 2, mk4 _ 1 0 0 0, ?_⟩
  have h0 : ⌊(1 / 2 : ℚ)⌋ = 0 := by norm_num
  simp [scalarAdd, s_eq, add]
  norm_num

example : mul (mk4 .scalarFirst (1 : ℤ) 2 3 4) (mk4 .vectorFirst 5 6 7 8) = mk4 .scalarFirst (-60) 12 30 24 := by
  apply toH_inj; apply Quaternion.ext <;> simp [toH_mul, s_eq, i_eq, j_eq, k_eq]

/-! ## C45 -/

/-- C45: `Conj` reverses products and is an involution. -/
theorem C45_conj [CommRing K] (p : Quat K l1) (q : Quat K l2) :
    conj (mul p q) = convert l1 (mul (conj q) (conj p)) ∧ conj (conj p) = p := by
  constructor <;> apply toH_inj <;> simp [toH_conj, toH_mul, toH_convert]

/-- C45: `Conj` negates exactly the vector part. -/
theorem C45_conj_components [CommRing K] (q : Quat K l) :
    (conj q).s = q.s ∧ (conj q).i = -q.i ∧ (conj q).j = -q.j ∧ (conj q).k = -q.k := by
  simp [conj, s_eq, i_eq, j_eq, k_eq]

/-- C45: `q * Conj(q)` is the squared length, as a real quaternion; the squared length is the sum of the squared components. -/
theorem C45_mul_conj (q : Quat ℝ l) :
    mul q (conj q) = mk4 l q.qLengthSquared 0 0 0 ∧ mul (conj q) q = mk4 l q.qLengthSquared 0 0 0 ∧
    q.qLengthSquared = q.s ^ 2 + q.i ^ 2 + q.j ^ 2 + q.k ^ 2 := by
  refine ⟨?_, ?_, qLengthSquared_eq q⟩ <;> apply toH_inj <;> apply Quaternion.ext <;>
    simp [toH_mul, toH_conj, qLengthSquared_eq, s_eq, i_eq, j_eq, k_eq] <;> ring

/-- C45: `Length` multiplies, vanishes only for the zero quaternion, and `LengthPrecise`/`Abs` have the same value. -/
theorem C45_length (p : Quat ℝ l1) (q : Quat ℝ l2) (lo hi : ℝ) (hlo : 0 < lo) (hh : lo ≤ hi) :
    (mul p q).qLength = p.qLength * q.qLength ∧ (mul p q).qLengthSquared = p.qLengthSquared * q.qLengthSquared ∧
    (q.qLength = 0 ↔ q = mk4 l2 0 0 0 0) ∧ q.qLengthPrecise lo hi = q.qLength ∧ q.qLength ^ 2 = q.qLengthSquared := by
  refine ⟨?_, ?_, ?_, C14_length_precise lo hi hlo hh _, ?_⟩
  · rw [qLength_eq_norm, qLength_eq_norm, qLength_eq_norm, toH_mul, norm_mul]
  · rw [qLengthSquared_normSq, qLengthSquared_normSq, qLengthSquared_normSq, toH_mul, map_mul]
  · rw [qLength_eq_norm, norm_eq_zero]
    constructor
    · intro h; apply toH_inj; rw [h, toH_mk4]; rfl
    · rintro rfl; rw [toH_mk4]; rfl
  · rw [qLength_eq_norm, qLengthSquared_normSq, Quaternion.normSq_eq_norm_mul_self, sq]

/-- C45: every nonzero quaternion has the returned two-sided inverse. -/
theorem C45_inverse (q : Quat ℝ l) (h : q ≠ mk4 l 0 0 0 0) :
    ∃ p, inverse q = some p ∧ mul p q = mk4 l 1 0 0 0 ∧ mul q p = mk4 l 1 0 0 0 := by
  have h0 : q.toH ≠ 0 := fun e => h (toH_inj (by rw [e, toH_mk4]; rfl))
  obtain ⟨p, hp, hpi⟩ := inverse_eq h0
  refine ⟨p, hp, ?_, ?_⟩ <;> apply toH_inj <;> rw [toH_mul, hpi, toH_mk4]
  · rw [inv_mul_cancel₀ h0]; rfl
  · rw [mul_inv_cancel₀ h0]; rfl

/-- C45: the inverse of zero is the failed assertion. -/
theorem C45_inverse_zero : inverse (mk4 l (0 : ℝ) 0 0 0) = none := by
  rw [inverse, if_pos]
  rw [qLengthSquared_eq]
  simp [s_eq, i_eq, j_eq, k_eq]

/-- C45: `Normalize` and `NormalizePrecise` of a nonzero quaternion give the unit quaternion of the same direction; `NormalizePrecise`
of zero is the real unit. -/
theorem C45_normalize (q : Quat ℝ l) :
    (q ≠ mk4 l 0 0 0 0 → ∃ u, qNormalize q = some u ∧ qNormalizePrecise q = u ∧ u.qLength = 1 ∧ q = scalarMul q.qLength u) ∧
    qNormalizePrecise (mk4 l (0 : ℝ) 0 0 0) = mk4 l 1 0 0 0 := by
  constructor
  · intro h
    have h0 : q.elements ≠ 0 := by
      intro e
      apply h
      apply ext_canonical
      funext t
      rw [canonical, e]
      fin_cases t <;> simp [sw]
    have hl : length q.elements ≠ 0 := fun e => h0 ((length_eq_zero _).1 e)
    have hp : 0 < length q.elements := lt_of_le_of_ne (length_nonneg _) (Ne.symm hl)
    refine ⟨⟨divReal q.elements (length q.elements)⟩, ?_, ?_, ?_, ?_⟩
    · rw [qNormalize, normalize, if_neg hl]; rfl
    · rw [qNormalizePrecise, normalizePrecise_ne_zero _ _ h0]
    · rw [qLength, length_divReal _ _ hp, div_self hl]
    · apply Quat.ext
      funext t
      simp only [scalarMul, divReal, qLength]
      exact (mul_div_cancel₀ (q.elements t) hl).symm
  · have : (mk4 l (0 : ℝ) 0 0 0).elements = 0 := by
      funext e
      obtain ⟨t, rfl⟩ := canonIdx_surj l e
      have := congrFun (canonical_mk4 (l := l) (0 : ℝ) 0 0 0) t
      rw [canonical, sw] at this
      rw [this]
      fin_cases t <;> rfl
    rw [qNormalizePrecise, this, normalizePrecise, if_pos ((scaleElements_eq_zero _).2 rfl)]

example : mk4 .vectorFirst (1 : ℝ) 2 3 4 ≠ mk4 .vectorFirst 0 0 0 0 := by
  intro h
  have := congrArg Quat.s h
  simp [s_eq] at this

/-! ## C46 -/

/-- C46: `q(v)` of a nonzero quaternion is the conjugation `q v q⁻¹`; no scalar part is dropped. -/
theorem C46_sandwich (q : Quat ℝ l) (h : q ≠ mk4 l 0 0 0 0) (v : Fin 3 → ℝ) :
    ∃ w, rotate q v = some w ∧ (ofVec l w).toH = q.toH * (ofVec l v).toH * q.toH⁻¹ := by
  have h0 : q.toH ≠ 0 := fun e => h (toH_inj (by rw [e, toH_mk4]; rfl))
  have hN : q.qLengthSquared ≠ 0 := toH_ne_zero.2 h0
  refine ⟨_, rotate_eq_rotMat hN v, ?_⟩
  rw [Quaternion.inv_def, ← qLengthSquared_normSq]
  apply Quaternion.ext
  · simp
    right
    ring
  all_goals
    simp [rotMat, Matrix.mulVec, dotProduct, Fin.sum_univ_three]
    field_simp
    ring

/-- C46: it is a linear isometry with determinant 1. -/
theorem C46_rotation (q : Quat ℝ l) (h : q ≠ mk4 l 0 0 0 0) :
    ∃ R : Matrix (Fin 3) (Fin 3) ℝ, (∀ v, rotate q v = some (R.mulVec v)) ∧ R * R.transpose = 1 ∧ R.det = 1 := by
  have hN : q.qLengthSquared ≠ 0 := toH_ne_zero.2 fun e => h (toH_inj (by rw [e, toH_mk4]; rfl))
  exact ⟨rotMat q, rotate_eq_rotMat hN, rotMat_orth hN, rotMat_det hN⟩

/-- C46: lengths and dot products of rotated vectors are unchanged. -/
theorem C46_isometry (q : Quat ℝ l) (v w v' w' : Fin 3 → ℝ) (hv : rotate q v = some v') (hw : rotate q w = some w') :
    dot v' w' = dot v w ∧ length v' = length v := by
  by_cases hN : q.qLengthSquared = 0
  · rw [rotate, inverse, if_pos hN] at hv; simp at hv
  have key : ∀ a b : Fin 3 → ℝ, dot ((rotMat q).mulVec a) ((rotMat q).mulVec b) = dot a b := by
    intro a b
    have ho : (rotMat q).transpose * rotMat q = 1 := mul_eq_one_comm.1 (rotMat_orth hN)
    have hd : ∀ x y : Fin 3 → ℝ, dot x y = x ⬝ᵥ y := fun x y => by
      rw [dot_eq_sum, dotProduct]; simp
    rw [hd, hd, Matrix.dotProduct_mulVec, Matrix.vecMul_mulVec, ho, Matrix.vecMul_one]
  rw [rotate_eq_rotMat hN] at hv hw
  obtain rfl := Option.some.inj hv
  obtain rfl := Option.some.inj hw
  refine ⟨key v w, ?_⟩
  rw [length, length, lengthSquared, lengthSquared, key]

/-- C46: rotating by a product is rotating by the right factor first, then by the left one. -/
theorem C46_compose (p : Quat ℝ l1) (q : Quat ℝ l2) (hp : p ≠ mk4 l1 0 0 0 0) (hq : q ≠ mk4 l2 0 0 0 0) (v : Fin 3 → ℝ) :
    ∃ w, rotate q v = some w ∧ rotate (mul p q) v = rotate p w := by
  have hp0 : p.toH ≠ 0 := fun e => hp (toH_inj (by rw [e, toH_mk4]; rfl))
  have hq0 : q.toH ≠ 0 := fun e => hq (toH_inj (by rw [e, toH_mk4]; rfl))
  obtain ⟨w, hw, hwH⟩ := C46_sandwich q hq v
  obtain ⟨x, hx, hxH⟩ := C46_sandwich p hp w
  have hpq : mul p q ≠ mk4 l1 0 0 0 0 := by
    intro e
    have := congrArg toH e
    rw [toH_mul, toH_mk4] at this
    exact mul_ne_zero hp0 hq0 this
  obtain ⟨y, hy, hyH⟩ := C46_sandwich (mul p q) hpq v
  refine ⟨w, hw, ?_⟩
  rw [hx, hy]
  congr 1
  have e1 : ∀ (l' : QLayout) (u : Fin 3 → ℝ), (ofVec l' u).toH = (ofVec l1 u).toH := fun l' u => by rw [toH_ofVec, toH_ofVec]
  rw [e1 l2 w, e1 l2 v] at hwH
  rw [hwH] at hxH
  rw [toH_mul, mul_inv_rev] at hyH
  have : (ofVec l1 y).toH = (ofVec l1 x).toH := by rw [hxH, hyH]; simp only [mul_assoc]
  rw [toH_ofVec, toH_ofVec] at this
  have h1 := congrArg (fun x : ℍ[ℝ] => x.imI) this
  have h2 := congrArg (fun x : ℍ[ℝ] => x.imJ) this
  have h3 := congrArg (fun x : ℍ[ℝ] => x.imK) this
  funext t
  fin_cases t
  · exact h1
  · exact h2
  · exact h3

/-- C46: nonzero multiples of a quaternion rotate alike (in particular `q` and `-q`). -/
theorem C46_scale (q : Quat ℝ l) (a : ℝ) (ha : a ≠ 0) (v : Fin 3 → ℝ) : rotate (scalarMul a q) v = rotate q v := by
  have hs : (scalarMul a q).qLengthSquared = a ^ 2 * q.qLengthSquared := by
    rw [qLengthSquared_eq, qLengthSquared_eq]
    simp [scalarMul, s, i, j, k]; ring
  by_cases hN : q.qLengthSquared = 0
  · rw [rotate, inverse, if_pos (by rw [hs, hN, mul_zero]), rotate, inverse, if_pos hN, Option.map_none, Option.map_none]
  · have hN' : (scalarMul a q).qLengthSquared ≠ 0 := by rw [hs]; positivity
    rw [rotate_eq_rotMat hN', rotate_eq_rotMat hN]
    congr 2
    ext x y
    fin_cases x <;> fin_cases y <;>
    · simp only [rotMat, hs]
      simp [scalarMul, s, i, j, k]
      field_simp

/-- C46: rotating with the zero quaternion trips the assertion of `Inverse`. -/
theorem C46_zero (v : Fin 3 → ℝ) : rotate (mk4 l (0 : ℝ) 0 0 0) v = none := by
  rw [rotate, C45_inverse_zero]; rfl

/-! ## C47 -/

/-- The upper left 3×3 block. -/
def block3 {r c : ℕ} (hr : 3 ≤ r) (hc : 3 ≤ c) (m : Matrix (Fin r) (Fin c) K) : Matrix (Fin 3) (Fin 3) K :=
  m.submatrix (Fin.castLE hr) (Fin.castLE hc)

private theorem block3_precede [CommRing K] {r c : ℕ} (hr : 3 ≤ r) (hc : 3 ≤ c) (m : Matrix (Fin r) (Fin c) K) (q : Quat K l) :
    block3 hr hc (quatToMatrix .precede m q) = quatEntry q := by
  ext a b
  rw [block3, Matrix.submatrix_apply, quatToMatrix_precede, dif_pos ⟨a.isLt, b.isLt⟩]
  rfl

private theorem block3_follow [CommRing K] {r c : ℕ} (hr : 3 ≤ r) (hc : 3 ≤ c) (m : Matrix (Fin r) (Fin c) K) (q : Quat K l) :
    block3 hr hc (quatToMatrix .follow m q) = (quatEntry q).transpose := by
  ext a b
  rw [block3, Matrix.submatrix_apply, quatToMatrix_follow, dif_pos ⟨a.isLt, b.isLt⟩]
  rfl

/-- C47: applying the 3×3 block of the converted unit quaternion to a vector is `q(v)`: `M * v` in the precede order, `v * M` in the
follow order, for every target shape. -/
theorem C47_rotates {r c : ℕ} (hr : 3 ≤ r) (hc : 3 ≤ c) (m : Matrix (Fin r) (Fin c) ℝ) (q : Quat ℝ l) (hq : q.qLength = 1) (v : Fin 3 → ℝ) :
    rotate q v = some ((block3 hr hc (quatToMatrix .precede m q)).mulVec v) ∧
    rotate q v = some (Matrix.vecMul v (block3 hr hc (quatToMatrix .follow m q))) := by
  have h1 : q.qLengthSquared = 1 := by rw [← (C45_length q q 1 1 one_pos le_rfl).2.2.2.2, hq]; norm_num
  rw [block3_precede, block3_follow, Matrix.vecMul_transpose, quatEntry_eq_rotMat h1]
  have := rotate_eq_rotMat (show q.qLengthSquared ≠ 0 by rw [h1]; norm_num) v
  exact ⟨this, this⟩

/-- C47: the block is orthogonal with determinant 1. -/
theorem C47_orthogonal {r c : ℕ} (hr : 3 ≤ r) (hc : 3 ≤ c) (o : Order) (m : Matrix (Fin r) (Fin c) ℝ) (q : Quat ℝ l) (hq : q.qLength = 1) :
    block3 hr hc (quatToMatrix o m q) * (block3 hr hc (quatToMatrix o m q)).transpose = 1 ∧ (block3 hr hc (quatToMatrix o m q)).det = 1 := by
  have h1 : q.qLengthSquared = 1 := by rw [← (C45_length q q 1 1 one_pos le_rfl).2.2.2.2, hq]; norm_num
  have h0 : q.qLengthSquared ≠ 0 := by rw [h1]; norm_num
  cases o
  · rw [block3_follow, quatEntry_eq_rotMat h1, Matrix.transpose_transpose, Matrix.det_transpose]
    exact ⟨mul_eq_one_comm.1 (rotMat_orth h0), rotMat_det h0⟩
  · rw [block3_precede, quatEntry_eq_rotMat h1]
    exact ⟨rotMat_orth h0, rotMat_det h0⟩

/-- C47: everything outside the block is as in the identity matrix (whatever the quaternion), so bigger matrices act on homogeneous
vectors. -/
theorem C47_rest [CommRing K] {r c : ℕ} (o : Order) (m : Matrix (Fin r) (Fin c) K) (q : Quat K l) (a : Fin r) (b : Fin c) (h : 3 ≤ a.val ∨ 3 ≤ b.val) :
    quatToMatrix o m q a b = if a.val = b.val then 1 else 0 := by
  cases o
  · rw [quatToMatrix_follow, dif_neg (by omega)]
  · rw [quatToMatrix_precede, dif_neg (by omega)]

/-- C47: products of unit quaternions become products of matrices, in the same order for the precede order and reversed for the follow
order. -/
theorem C47_compose {r c : ℕ} (hr : 3 ≤ r) (hc : 3 ≤ c) (m : Matrix (Fin r) (Fin c) ℝ) (p : Quat ℝ l1) (q : Quat ℝ l2)
    (hp : p.qLength = 1) (hq : q.qLength = 1) :
    block3 hr hc (quatToMatrix .precede m (mul p q)) =
      block3 hr hc (quatToMatrix .precede m p) * block3 hr hc (quatToMatrix .precede m q) ∧
    block3 hr hc (quatToMatrix .follow m (mul p q)) =
      block3 hr hc (quatToMatrix .follow m q) * block3 hr hc (quatToMatrix .follow m p) := by
  have hne : ∀ {l' : QLayout} (x : Quat ℝ l'), x.qLength = 1 → x ≠ mk4 l' 0 0 0 0 := by
    intro l' x hx e
    have := ((C45_length x x 1 1 one_pos le_rfl).2.2.1).2 e
    rw [hx] at this; norm_num at this
  have hpq : (mul p q).qLength = 1 := by rw [(C45_length p q 1 1 one_pos le_rfl).1, hp, hq, one_mul]
  have key : quatEntry (mul p q) = quatEntry p * quatEntry q := by
    apply Matrix.toLin'.injective
    apply LinearMap.ext
    intro v
    rw [Matrix.toLin'_apply, Matrix.toLin'_apply, ← Matrix.mulVec_mulVec]
    obtain ⟨w, hw, hw2⟩ := C46_compose p q (hne p hp) (hne q hq) v
    have e1 := (C47_rotates hr hc m (mul p q) hpq v).1
    have e2 := (C47_rotates hr hc m q hq v).1
    have e3 := (C47_rotates hr hc m p hp w).1
    rw [block3_precede] at e1 e2 e3
    rw [hw] at e2
    obtain rfl := Option.some.inj e2
    rw [hw2, e3] at e1
    exact (Option.some.inj e1).symm
  simp only [block3_precede, block3_follow, key, Matrix.transpose_mul, and_self]

example : (mk4 .scalarFirst (3 / 5 : ℝ) 0 (4 / 5) 0).qLength = 1 := by
  rw [qLength, length, ← qLengthSquared, qLengthSquared_eq]
  simp [s_eq, i_eq, j_eq, k_eq]
  norm_num

/-! ## C48 -/

/-- The conversion on the nine elements. -/
private theorem matrixToQuatElem_spec (B : Matrix (Fin 3) (Fin 3) ℝ) (hBo : B * B.transpose = 1) (hBd : B.det = 1) (hBt : B.trace ≠ -1) :
    ∃ q, matrixToQuatElem l (fun i j => B i j) = some q ∧ q.qLengthSquared = 1 ∧ quatEntry q = B := by
  obtain ⟨a00, a01, a02, a10, a11, a12, a20, a21, a22, rfl⟩ :
      ∃ a00 a01 a02 a10 a11 a12 a20 a21 a22 : ℝ, B = !![a00, a01, a02; a10, a11, a12; a20, a21, a22] :=
    ⟨_, _, _, _, _, _, _, _, _, Matrix.eta_fin_three B⟩
  -- the matrix equals its cofactor matrix
  have hadj : (!![a00, a01, a02; a10, a11, a12; a20, a21, a22] : Matrix (Fin 3) (Fin 3) ℝ).adjugate =
      (!![a00, a01, a02; a10, a11, a12; a20, a21, a22] : Matrix (Fin 3) (Fin 3) ℝ).transpose := by
    have h1 := Matrix.adjugate_mul (!![a00, a01, a02; a10, a11, a12; a20, a21, a22] : Matrix (Fin 3) (Fin 3) ℝ)
    rw [hBd, one_smul] at h1
    calc _ = (!![a00, a01, a02; a10, a11, a12; a20, a21, a22] : Matrix (Fin 3) (Fin 3) ℝ).adjugate *
        (!![a00, a01, a02; a10, a11, a12; a20, a21, a22] * (!![a00, a01, a02; a10, a11, a12; a20, a21, a22] : Matrix (Fin 3) (Fin 3) ℝ).transpose) := by
          rw [hBo, Matrix.mul_one]
      _ = _ := by rw [← Matrix.mul_assoc, h1, Matrix.one_mul]
  rw [Matrix.adjugate_fin_three_of] at hadj
  have c (i j : Fin 3) := congrFun (congrFun hadj i) j
  have c00 := c 0 0
  have c01 := c 0 1
  have c02 := c 0 2
  have c10 := c 1 0
  have c11 := c 1 1
  have c12 := c 1 2
  have c20 := c 2 0
  have c21 := c 2 1
  have c22 := c 2 2
  clear c
  have hBo' := mul_eq_one_comm.1 hBo
  have r00 := congrFun (congrFun hBo 0) 0
  have r11 := congrFun (congrFun hBo 1) 1
  have r22 := congrFun (congrFun hBo 2) 2
  have k00 := congrFun (congrFun hBo' 0) 0
  have k11 := congrFun (congrFun hBo' 1) 1
  have k22 := congrFun (congrFun hBo' 2) 2
  have r01 := congrFun (congrFun hBo 0) 1
  have r02 := congrFun (congrFun hBo 0) 2
  have r12 := congrFun (congrFun hBo 1) 2
  have k01 := congrFun (congrFun hBo' 0) 1
  have k02 := congrFun (congrFun hBo' 0) 2
  have k12 := congrFun (congrFun hBo' 1) 2
  rw [Matrix.trace_fin_three] at hBt
  simp [Matrix.mul_apply, Fin.sum_univ_three] at c00 c01 c02 c10 c11 c12 c20 c21 c22 r00 r11 r22 k00 k11 k22 r01 r02 r12 k01 k02 k12 hBt
  -- squares of the antisymmetric part
  have q1 : (a02 - a20) ^ 2 + (a10 - a01) ^ 2 = 2 * (1 + a00 + a11 + a22) * (1 - a00) := by
    linear_combination r00 + k00 + 2 * c11 + 2 * c22
  have q2 : (a21 - a12) ^ 2 + (a10 - a01) ^ 2 = 2 * (1 + a00 + a11 + a22) * (1 - a11) := by
    linear_combination r11 + k11 + 2 * c00 + 2 * c22
  have q3 : (a21 - a12) ^ 2 + (a02 - a20) ^ 2 = 2 * (1 + a00 + a11 + a22) * (1 - a22) := by
    linear_combination r22 + k22 + 2 * c00 + 2 * c11
  have q4 : (a21 - a12) * (a02 - a20) = (1 + a00 + a11 + a22) * (a10 + a01) := by linear_combination c01 + c10 - k01 - r01
  have q5 : (a21 - a12) * (a10 - a01) = (1 + a00 + a11 + a22) * (a02 + a20) := by linear_combination c20 + c02 - k02 - r02
  have q6 : (a02 - a20) * (a10 - a01) = (1 + a00 + a11 + a22) * (a21 + a12) := by linear_combination c12 + c21 - k12 - r12
  have hT : 0 < 1 + a00 + a11 + a22 := by
    have h4 : 0 ≤ (1 + a00 + a11 + a22) * (4 - (1 + a00 + a11 + a22)) := by nlinarith [sq_nonneg (a21 - a12), sq_nonneg (a02 - a20), sq_nonneg (a10 - a01)]
    have hne : 1 + a00 + a11 + a22 ≠ 0 := fun h => hBt (by linarith)
    rcases lt_or_gt_of_ne hne with h | h
    · nlinarith
    · exact h
  generalize hTd : 1 + a00 + a11 + a22 = T at *
  have hsq : Real.sqrt T ^ 2 = T := Real.sq_sqrt hT.le
  have hs0 : 0 < Real.sqrt T := Real.sqrt_pos.2 hT
  have hval : matrixToQuatElem l (fun i j => (!![a00, a01, a02; a10, a11, a12; a20, a21, a22] : Matrix (Fin 3) (Fin 3) ℝ) i j) =
      some (ofCanonical l ![Real.sqrt T * 0.5, (a21 - a12) * (1 / (4 * (Real.sqrt T * 0.5))),
      (a02 - a20) * (1 / (4 * (Real.sqrt T * 0.5))), (a10 - a01) * (1 / (4 * (Real.sqrt T * 0.5)))]) := by
    unfold matrixToQuatElem
    simp only [Matrix.of_apply, Matrix.cons_val', Matrix.cons_val_zero, Matrix.cons_val_one, Matrix.cons_val, Matrix.cons_val_fin_one]
    rw [hTd, if_neg (not_lt.2 hT.le), if_neg (by positivity)]
  refine ⟨_, hval, ?_⟩
  clear hval r00 r01 r02 r11 r12 r22 k00 k01 k02 k11 k12 k22 c00 c01 c02 c10 c11 c12 c20 c21 c22 hadj hBo hBo' hBd hBt
  generalize hr : Real.sqrt T = r at *
  have e1 : ∀ d : ℝ, d * (1 / (4 * (r * 0.5))) = d / (2 * r) := fun d => by field_simp; ring
  have e2 : ∀ x y : ℝ, x / (2 * r) * (y / (2 * r)) = x * y / (4 * T) := fun x y => by rw [← hsq]; field_simp; ring
  have e3 : ∀ x : ℝ, x / (2 * r) * (r * 0.5) = x / 4 := fun x => by field_simp; ring
  have e4 : r * 0.5 * (r * 0.5) = T / 4 := by rw [← hsq]; ring
  have hT0 : T ≠ 0 := hT.ne'
  simp only [e1]
  refine ⟨?_, ?_⟩
  · rw [qLengthSquared_eq]
    simp only [s_eq, i_eq, j_eq, k_eq, canonical_ofCanonical, pow_two]
    simp only [Matrix.cons_val_zero, Matrix.cons_val_one, Matrix.cons_val]
    rw [e4, e2, e2, e2]
    field_simp
    linear_combination (q1 + q2 + q3) / 2 - T * hTd
  · ext x y
    fin_cases x <;> fin_cases y <;>
    · simp only [quatEntry, s_eq, i_eq, j_eq, k_eq, canonical_ofCanonical, Matrix.cons_val_zero, Matrix.cons_val_one, Matrix.cons_val,
        Matrix.of_apply, Matrix.cons_val', Matrix.cons_val_fin_one, Fin.zero_eta, Fin.mk_one, Fin.reduceFinMk, e2, e3, mul_comm (a10 - a01)]
      field_simp
      linarith

/-- C48: every rotation matrix that is not a half turn is converted to a unit quaternion which converts back to the same rotation.
Missing: half turns, where the conversion fails (`C48_half_turn_violated`). -/
theorem C48_roundtrip_partial {r c : ℕ} (o : Order) (m m' : Matrix (Fin (r + 3)) (Fin (c + 3)) ℝ)
    (ho : block3 (by omega) (by omega) m * (block3 (by omega) (by omega) m).transpose = 1)
    (hd : (block3 (by omega) (by omega) m).det = 1) (ht : (block3 (by omega) (by omega) m).trace ≠ -1) :
    ∃ q, matrixToQuat o l m = some q ∧ q.qLength = 1 ∧
      block3 (by omega) (by omega) (quatToMatrix o m' q) = block3 (by omega) (by omega) m := by
  have hpre : ∀ B : Matrix (Fin 3) (Fin 3) ℝ, (∀ i j, getElem3 o m i j = B i j) → B * B.transpose = 1 → B.det = 1 → B.trace ≠ -1 →
      ∃ q, matrixToQuat o l m = some q ∧ q.qLength = 1 ∧ quatEntry q = B := by
    intro B hB h1 h2 h3
    obtain ⟨q, hq, hl, he⟩ := matrixToQuatElem_spec (l := l) B h1 h2 h3
    refine ⟨q, ?_, ?_, he⟩
    · rw [matrixToQuat, ← hq]
      congr 1
      funext i j
      exact hB i j
    · rw [qLength, length, ← qLengthSquared, hl, Real.sqrt_one]
  cases o
  · obtain ⟨q, hq, hl, he⟩ := hpre (block3 (by omega) (by omega) m).transpose (fun i j => rfl)
      (by rw [Matrix.transpose_transpose]; exact mul_eq_one_comm.1 ho) (by rw [Matrix.det_transpose]; exact hd)
      (by rw [Matrix.trace_transpose]; exact ht)
    exact ⟨q, hq, hl, by rw [block3_follow, he, Matrix.transpose_transpose]⟩
  · obtain ⟨q, hq, hl, he⟩ := hpre (block3 (by omega) (by omega) m) (fun i j => rfl) ho hd ht
    exact ⟨q, hq, hl, by rw [block3_precede, he]⟩

/-- C48 is false for half turns: for every rotation matrix with trace `-1` the code divides by zero. -/
theorem C48_half_turn_violated {r c : ℕ} (o : Order) (m : Matrix (Fin (r + 3)) (Fin (c + 3)) ℝ)
    (ht : (block3 (by omega) (by omega) m).trace = -1) : matrixToQuat o l m = none := by
  rw [Matrix.trace_fin_three] at ht
  have e : ∀ i : Fin 3, getElem3 o m i i = block3 (by omega) (by omega) m i i := by
    intro i
    cases o <;> rfl
  rw [matrixToQuat, matrixToQuatElem]
  simp only [e]
  have h0 : 1 + block3 (by omega) (by omega) m 0 0 + block3 (by omega) (by omega) m 1 1 + block3 (by omega) (by omega) m 2 2 = 0 := by
    linarith
  rw [h0, if_neg (lt_irrefl _), if_pos (by simp)]

/-- The half turn about the x axis is such a rotation matrix. -/
theorem C48_half_turn_exists : ∃ m : Matrix (Fin (0 + 3)) (Fin (0 + 3)) ℝ, block3 le_rfl le_rfl m * (block3 le_rfl le_rfl m).transpose = 1 ∧
    (block3 le_rfl le_rfl m).det = 1 ∧ (block3 le_rfl le_rfl m).trace = -1 ∧ matrixToQuat .precede .scalarFirst m = none := by
  refine ⟨!![1, 0, 0; 0, -1, 0; 0, 0, -1], ?_, ?_, ?_, ?_⟩
  · ext i j
    fin_cases i <;> fin_cases j <;> simp [block3, Matrix.mul_apply, Fin.sum_univ_three]
  · rw [Matrix.det_fin_three]; simp [block3]
  · rw [Matrix.trace_fin_three]; simp [block3]
  · apply C48_half_turn_violated
    rw [Matrix.trace_fin_three]; simp [block3]

/-- A rotation matrix meeting the hypotheses of `C48_roundtrip_partial`: the quarter turn about z. -/
example : let m : Matrix (Fin (0 + 3)) (Fin (0 + 3)) ℝ := !![0, -1, 0; 1, 0, 0; 0, 0, 1]
    block3 le_rfl le_rfl m * (block3 le_rfl le_rfl m).transpose = 1 ∧ (block3 le_rfl le_rfl m).det = 1 ∧ (block3 le_rfl le_rfl m).trace ≠ -1 := by
  refine ⟨?_, ?_, ?_⟩
  · ext i j
    fin_cases i <;> fin_cases j <;> simp [block3, Matrix.mul_apply, Fin.sum_univ_three]
  · rw [Matrix.det_fin_three]; simp [block3]
  · rw [Matrix.trace_fin_three]; simp [block3]; norm_num

end Mathter.Props
