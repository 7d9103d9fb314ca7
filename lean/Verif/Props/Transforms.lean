import Mathlib.Analysis.Complex.Trigonometric
import Mathlib.LinearAlgebra.CrossProduct
import Mathlib.LinearAlgebra.Matrix.NonsingularInverse
import Verif.Lemmas.Transforms
import Verif.Lemmas.Quaternion
import Verif.Props.Quaternion

/-!
# Scale, translation, identity, zero, shear and rotation builders (C51–C55)

`applyT o k m v` (Spec/Transform.lean) is the image of the position `v` under a transform matrix `m` of order `o` and of one of the
shapes n×n (`linear`), n×(n+1) or (n+1)×n (`affine`), (n+1)×(n+1) (`homogeneous`).
-/

namespace Mathter.Props
open Mathter
universe u
variable {K : Type u}

/-! ## C54 -/

/-- Writing the diagonal in a loop. -/
private theorem ent_diag [Zero K] {r c n lo : ℕ} (hlo : lo ≤ n) (o : Order) (x : Fin n → K) (m : Matrix (Fin r) (Fin c) K) (a b : ℕ) :
    ent o (forUp n lo (fun i m => setAt i.val i.val (x i) m) m) a b =
      if h : a < n then (if a = b ∧ lo ≤ a ∧ inR o r c a b then x ⟨a, h⟩ else ent o m a b) else ent o m a b := by
  refine (forUp_inv (P := fun k m' => ∀ a b, ent o m' a b =
      if h : a < n then (if (a = b ∧ lo ≤ a ∧ inR o r c a b) ∧ a < k then x ⟨a, h⟩ else ent o m a b) else ent o m a b) hlo ?_ ?_ a b).trans ?_
  · intro a b
    split_ifs <;> first | rfl | (exfalso; omega)
  · intro i m' hi ih a b
    rw [ent_setAt_diag, ih]
    by_cases e : (a = i.val ∧ b = i.val) ∧ inR o r c a b
    · obtain ⟨⟨rfl, rfl⟩, hR⟩ := e
      rw [if_pos ⟨⟨rfl, rfl⟩, hR⟩, dif_pos i.isLt, if_pos ⟨⟨rfl, hi, hR⟩, Nat.lt_succ_self _⟩]
    · rw [if_neg e]
      by_cases ha : a < n
      · rw [dif_pos ha, dif_pos ha]
        by_cases hc : a = b ∧ lo ≤ a ∧ inR o r c a b
        · have : a ≠ i.val := fun h => e ⟨⟨h, hc.1 ▸ h⟩, hc.2.2⟩
          have e2 : a < i.val + 1 ↔ a < i.val := by omega
          simp only [e2]
        · rw [if_neg (fun h => hc h.1), if_neg (fun h => hc h.1)]
      · rw [dif_neg ha, dif_neg ha]
  · by_cases ha : a < n
    · simp only [ha, dite_true, and_true]
    · simp only [ha, dite_false]

/-- C54: `Identity()` leaves every position unchanged, for every order and shape. -/
theorem C54_identity [Field K] {n : ℕ} (o : Order) (k : TKind) (v : Fin n → K) :
    applyT o k (identityMat (tRows o n k) (tCols o n k)) v = some v := by
  rw [applyT_block 1]
  · rw [Matrix.one_mulVec]
  · intro i j
    rw [ent_identityMat, Matrix.one_apply]
    simp only [inR_lin, and_true, Fin.ext_iff]
  · intro a b h _
    rw [ent_identityMat]
    simp only [h, and_true]

/-- C54: `Identity()` as a quaternion is neutral for multiplication and rotates nothing. -/
theorem C54_identity_quat {l l' : QLayout} (q : Quat ℝ l') (v : Fin 3 → ℝ) :
    (Quat.mul (identityQuat l) q).toH = q.toH ∧ (Quat.mul q (identityQuat (K := ℝ) l)).toH = q.toH ∧
      Quat.rotate (identityQuat l) v = some v := by
  refine ⟨?_, ?_, ?_⟩
  · rw [Quat.toH_mul, identityQuat, Quat.toH_mk4]; exact one_mul _
  · rw [Quat.toH_mul, identityQuat, Quat.toH_mk4]; exact mul_one _
  · have h1 : (identityQuat (K := ℝ) l).qLengthSquared = 1 := by
      rw [Quat.qLengthSquared_normSq, identityQuat, Quat.toH_mk4]
      exact map_one _
    rw [Quat.rotate_eq_rotMat (by rw [h1]; norm_num)]
    congr 1
    have : Quat.rotMat (identityQuat (K := ℝ) l) = 1 := by
      ext a b
      fin_cases a <;> fin_cases b <;> simp [Quat.rotMat, h1] <;> simp [identityQuat, Quat.s_eq, Quat.i_eq, Quat.j_eq, Quat.k_eq]
    rw [this, Matrix.one_mulVec]

/-- C54: `Zero()` maps every position to the origin (linear and affine shapes; a homogeneous zero matrix yields 0 / 0), and as a vector
or quaternion has only zero elements. -/
theorem C54_zero [Field K] {n : ℕ} (o : Order) (k : TKind) (v : Fin n → K) :
    (k ≠ .homogeneous → applyT o k (zeroMat (tRows o n k) (tCols o n k)) v = some 0) ∧
    (k = .homogeneous → applyT o k (zeroMat (tRows o n k) (tCols o n k)) v = none) ∧
    (∀ r c, zeroMat (K := K) r c = 0) ∧ zeroVec (K := K) n = 0 ∧ ∀ l i, (zeroQuat (K := K) l).elements i = 0 := by
  have hz : ∀ r c, zeroMat (K := K) r c = 0 := fun r c => rfl
  refine ⟨fun hk => ?_, fun hk => ?_, hz, rfl, fun l i => ?_⟩
  · rw [hz]
    cases k
    · cases o <;> simp [applyT, TKind.finish]
    · cases o <;> simp [applyT, TKind.finish]
    · exact absurd rfl hk
  · subst hk
    rw [hz]
    cases o <;> simp [applyT, TKind.finish]
  · cases l <;> fin_cases i <;> rfl

/-- C54: `Scale(s)` multiplies component by component. -/
theorem C54_scale [Field K] {n : ℕ} (o : Order) (k : TKind) (s v : Fin n → K) :
    applyT o k (scaleMat (tRows o n k) (tCols o n k) s) v = some fun i => s i * v i := by
  have hmin : n ≤ min (tRows o n k) (tCols o n k) := by
    cases o <;> cases k <;> simp
  have he : ∀ a b, ent o (scaleMat (tRows o n k) (tCols o n k) s) a b =
      if a = b ∧ inR o (tRows o n k) (tCols o n k) a b then (if h : a < n then s ⟨a, h⟩ else 1) else 0 := by
    intro a b
    rw [scaleMat, ent_diag hmin o (fun _ => (1 : K)), ent_diag (Nat.zero_le _), ent_zeroMat]
    by_cases e : a = b ∧ inR o (tRows o n k) (tCols o n k) a b
    · obtain ⟨rfl, hR⟩ := e
      have : a < min (tRows o n k) (tCols o n k) := by
        cases o <;> simp only [inR] at hR <;> omega
      simp only [this, hR, dite_true, and_true, true_and, if_true, Nat.zero_le]
      split_ifs <;> first | rfl | (exfalso; omega)
    · rw [if_neg e]
      simp only [show ∀ q : Prop, (a = b ∧ q ∧ inR o (tRows o n k) (tCols o n k) a b) ↔ False from
        fun q => ⟨fun h => e ⟨h.1, h.2.2⟩, False.elim⟩, if_false]
      split_ifs <;> rfl
  rw [applyT_block (Matrix.diagonal s)]
  · rw [show (Matrix.diagonal s).mulVec v = fun i => s i * v i from funext fun i => Matrix.mulVec_diagonal s v i]
  · intro i j
    rw [he, Matrix.diagonal_apply]
    simp only [inR_lin, and_true, Fin.ext_iff, i.isLt, dite_true]
  · intro a b h hab
    rw [he]
    simp only [h, and_true]
    split_ifs <;> first | rfl | (exfalso; omega)

/-- C54: `Translation(t)` adds `t`. -/
theorem C54_translation [Field K] {n : ℕ} (o : Order) (k : TKind) (hk : k ≠ .linear) (t v : Fin n → K) :
    applyT o k (translationMat o (tRows o n k) (tCols o n k) t) v = some (v + t) := by
  have he : ∀ a b, inR o (tRows o n k) (tCols o n k) a b → ent o (translationMat o (tRows o n k) (tCols o n k) t) a b =
      if h : b = n ∧ a < n then t ⟨a, h.2⟩ else if a = b then 1 else 0 := by
    intro a b hR
    have hins : k.ins n = n + 1 := by cases k <;> simp_all
    cases o
    · have hr : tRows .follow n k = n + 1 := hins
      have := forUp_inv (n := n) (lo := 0) (body := fun i m => setAt (K := K) (r := tRows .follow n k) (c := tCols .follow n k)
          (tRows .follow n k - 1) i.val (t i) m) (s := identityMat _ _)
        (fun q m => ∀ a b, inR .follow (tRows .follow n k) (tCols .follow n k) a b → ent .follow m a b =
          if h : b = n ∧ a < n then (if a < q then t ⟨a, h.2⟩ else if a = b then 1 else 0) else if a = b then 1 else 0) (Nat.zero_le _)
        (by
          intro a b h
          rw [ent_identityMat]
          simp only [h, and_true]
          split_ifs <;> first | rfl | (exfalso; omega))
        (by
          intro i m _ ih a b h
          have e1 : ent .follow (setAt (tRows .follow n k - 1) i.val (t i) m) a b =
              if b = tRows .follow n k - 1 ∧ a = i.val then t i else ent .follow m a b := by
            simp only [ent, setAt, Matrix.of_apply]
            simp only [inR] at h
            simp only [h, and_self, dite_true]
          rw [e1, ih a b h, hr, Nat.add_sub_cancel]
          by_cases e : b = n ∧ a = i.val
          · obtain ⟨rfl, rfl⟩ := e
            simp
          · rw [if_neg e]
            by_cases e' : b = n ∧ a < n
            · rw [dif_pos e', dif_pos e']
              have : a < i.val + 1 ↔ a < i.val := by omega
              simp only [this]
            · rw [dif_neg e', dif_neg e'])
      refine (this a b hR).trans ?_
      split_ifs <;> first | rfl | (exfalso; omega)
    · have hr : tCols .precede n k = n + 1 := hins
      have := forUp_inv (n := n) (lo := 0) (body := fun i m => setAt (K := K) (r := tRows .precede n k) (c := tCols .precede n k)
          i.val (tCols .precede n k - 1) (t i) m) (s := identityMat _ _)
        (fun q m => ∀ a b, inR .precede (tRows .precede n k) (tCols .precede n k) a b → ent .precede m a b =
          if h : b = n ∧ a < n then (if a < q then t ⟨a, h.2⟩ else if a = b then 1 else 0) else if a = b then 1 else 0) (Nat.zero_le _)
        (by
          intro a b h
          rw [ent_identityMat]
          simp only [h, and_true]
          split_ifs <;> first | rfl | (exfalso; omega))
        (by
          intro i m _ ih a b h
          have e1 : ent .precede (setAt i.val (tCols .precede n k - 1) (t i) m) a b =
              if b = tCols .precede n k - 1 ∧ a = i.val then t i else ent .precede m a b := by
            simp only [ent, setAt, Matrix.of_apply]
            simp only [inR] at h
            simp only [h, and_self, dite_true, and_comm]
          rw [e1, ih a b h, hr, Nat.add_sub_cancel]
          by_cases e : b = n ∧ a = i.val
          · obtain ⟨rfl, rfl⟩ := e
            simp
          · rw [if_neg e]
            by_cases e' : b = n ∧ a < n
            · rw [dif_pos e', dif_pos e']
              have : a < i.val + 1 ↔ a < i.val := by omega
              simp only [this]
            · rw [dif_neg e', dif_neg e'])
      refine (this a b hR).trans ?_
      split_ifs <;> first | rfl | (exfalso; omega)
  have hin : ∀ a b, a < k.outs n → b < k.ins n → inR o (tRows o n k) (tCols o n k) a b := fun a b h1 h2 => (inR_t ..).2 ⟨h1, h2⟩
  rw [applyT_eq 1 t]
  · rw [Matrix.one_mulVec]
  · intro i j
    rw [he _ _ (inR_lin i j), dif_neg (by omega), Matrix.one_apply]
    simp only [Fin.ext_iff]
  · intro _ i
    rw [he, dif_pos ⟨rfl, i.isLt⟩]
    exact hin _ _ (by cases k <;> first | exact i.isLt | exact i.isLt.trans (Nat.lt_succ_self _)) (by cases k <;> simp_all)
  · intro h; exact absurd h hk
  · rintro rfl
    constructor
    · intro j
      rw [he _ _ (hin _ _ (by simp) (by simp)), dif_neg (by omega), if_neg (by omega)]
    · rw [he _ _ (hin _ _ (by simp) (by simp)), dif_neg (by omega), if_pos rfl]

/-- A translation is not the identity: the statement is about a proper movement. -/
example : applyT .follow .homogeneous (translationMat .follow 4 4 ![(1 : ℚ), 2, 3]) ![10, 20, 30] = some ![11, 22, 33] := by
  rw [C54_translation .follow .homogeneous (by simp)]
  congr 1
  funext i
  fin_cases i <;> norm_num

/-! ## C55 -/

/-- C55: `Shear(slope, dir, mod)` adds `slope * v[mod]` to coordinate `dir`. -/
theorem C55_aligned [Field K] {n : ℕ} (o : Order) (k : TKind) (slope : K) (dir mod : Fin n) (h : dir ≠ mod) (v : Fin n → K) :
    ∃ m, shearAligned o (tRows o n k) (tCols o n k) slope (dir.val : ℤ) (mod.val : ℤ) = some m ∧
      applyT o k m v = some fun i => if i = dir then v i + slope * v mod else v i := by
  have hne : (dir.val : ℤ) ≠ mod.val := fun e => h (Fin.ext (by exact_mod_cast e))
  have hex : ∃ m, shearAligned o (tRows o n k) (tCols o n k) slope (dir.val : ℤ) (mod.val : ℤ) = some m ∧
      ∀ a b, inR o (tRows o n k) (tCols o n k) a b →
        ent o m a b = if a = dir.val ∧ b = mod.val then slope else if a = b then 1 else 0 := by
    have hr := inR_lin (o := o) (k := k) dir mod
    rw [shearAligned, if_neg (by omega)]
    cases o
    · simp only [inR] at hr
      refine ⟨_, if_pos (by omega), ?_⟩
      intro a b hR
      simp only [Int.toNat_natCast]
      have := ent_identityMat (K := K) (r := tRows .follow n k) (c := tCols .follow n k) .follow a b
      simp only [hR, and_true] at this
      rw [← this]
      simp only [inR] at hR
      simp only [ent, setAt, Matrix.of_apply, hR, and_self, dite_true, and_comm]
    · simp only [inR] at hr
      refine ⟨_, if_pos (by omega), ?_⟩
      intro a b hR
      simp only [Int.toNat_natCast]
      have := ent_identityMat (K := K) (r := tRows .precede n k) (c := tCols .precede n k) .precede a b
      simp only [hR, and_true] at this
      rw [← this]
      simp only [inR] at hR
      simp only [ent, setAt, Matrix.of_apply, hR, and_self, dite_true]
  obtain ⟨m, hm, he⟩ := hex
  refine ⟨m, hm, ?_⟩
  rw [applyT_block (1 + Matrix.single dir mod slope)]
  · rw [Matrix.add_mulVec, Matrix.one_mulVec]
    congr 1
    funext i
    rw [Pi.add_apply, Matrix.single_mulVec]
    by_cases e : i = dir
    · subst e; simp
    · simp [e]
  · intro i j
    rw [he _ _ (inR_lin i j), Matrix.add_apply, Matrix.one_apply, Matrix.single_apply]
    by_cases e : i = dir ∧ j = mod
    · obtain ⟨rfl, rfl⟩ := e
      simp [h]
    · have e' : ¬(dir = i ∧ mod = j) := fun h => e ⟨h.1.symm, h.2.symm⟩
      have e'' : ¬(i.val = dir.val ∧ j.val = mod.val) := fun h => e ⟨Fin.ext h.1, Fin.ext h.2⟩
      rw [if_neg e', if_neg e'', add_zero]
      simp only [Fin.ext_iff]
  · intro a b hR hab
    rw [he _ _ hR, if_neg (by omega)]

/-- C55: equal, negative or too large axis indices fail the assertions. -/
theorem C55_aligned_rejects [Zero K] [One K] (o : Order) (r c : ℕ) (slope : K) (dir mod : ℤ) :
    shearAligned o r c slope dir mod = none ↔
      dir = mod ∨ dir < 0 ∨ mod < 0 ∨ (o = .precede ∧ (r ≤ dir ∨ c ≤ mod)) ∨ (o = .follow ∧ (r ≤ mod ∨ c ≤ dir)) := by
  rw [shearAligned]
  by_cases h : dir = mod ∨ dir < 0 ∨ mod < 0
  · rw [if_pos h]
    simp only [true_iff]
    rcases h with h | h | h
    · exact Or.inl h
    · exact Or.inr (Or.inl h)
    · exact Or.inr (Or.inr (Or.inl h))
  · rw [if_neg h]
    cases o
    · by_cases h2 : mod < r ∧ dir < c
      · simp only [h2, and_self, if_true, reduceCtorEq, false_and, true_and, false_or, false_iff]
        omega
      · simp only [h2, if_false, reduceCtorEq, false_and, true_and, false_or, true_iff]
        omega
    · by_cases h2 : dir < r ∧ mod < c
      · simp only [h2, and_self, if_true, reduceCtorEq, false_and, true_and, or_false, false_iff]
        omega
      · simp only [h2, if_false, reduceCtorEq, false_and, true_and, or_false, true_iff]
        omega

/-- C55: the general shear moves `v` along `dir` by `slope` times the scalar product with `mod`. -/
theorem C55_general [Field K] {n : ℕ} (o : Order) (k : TKind) (slope : K) (dir mod v : Fin n → K) :
    applyT o k (shearGeneral o (tRows o n k) (tCols o n k) slope dir mod) v =
      some fun i => v i + slope * (∑ j, v j * mod j) * dir i := by
  rw [applyT_block (1 + Matrix.of fun i j => slope * dir i * mod j)]
  · congr 1
    funext i
    rw [Matrix.add_mulVec, Matrix.one_mulVec, Pi.add_apply, Matrix.mulVec, dotProduct, Finset.mul_sum, Finset.sum_mul]
    congr 1
    refine Finset.sum_congr rfl fun j _ => ?_
    rw [Matrix.of_apply]; ring
  · intro i j
    rw [shearGeneral, ent_insert_fromPrecede _ _ _ _ _ (inR_lin i j), dif_pos ⟨i.isLt, j.isLt⟩, identityMat_eq_one, Matrix.add_apply,
      Matrix.add_apply, Matrix.mul_apply, Fin.sum_univ_one]
    simp
  · intro a b hR hab
    rw [shearGeneral, ent_insert_fromPrecede _ _ _ _ _ hR, dif_neg (by omega), ent_identityMat]
    simp only [hR, and_true]

/-- C55: for perpendicular axes the shear with the negated slope is the inverse. -/
theorem C55_inverse [Field K] {n : ℕ} (o o' : Order) (k k' : TKind) (slope : K) (dir mod v : Fin n → K) (h : ∑ j, dir j * mod j = 0) :
    (applyT o k (shearGeneral o (tRows o n k) (tCols o n k) slope dir mod) v).bind
      (applyT o' k' (shearGeneral o' (tRows o' n k') (tCols o' n k') (-slope) dir mod)) = some v := by
  rw [C55_general, Option.bind_some, C55_general]
  congr 1
  funext i
  have : ∑ j, (v j + slope * (∑ j, v j * mod j) * dir j) * mod j = ∑ j, v j * mod j := by
    simp only [add_mul, Finset.sum_add_distrib, mul_assoc, ← Finset.mul_sum]
    rw [h]; ring
  rw [this]; ring

/-- Perpendicular axes that are not coordinate axes. -/
example : ∑ j, (![1, 1, 0] : Fin 3 → ℚ) j * (![1, -1, 2] : Fin 3 → ℚ) j = 0 := by decide +kernel

/-! ## C51 -/

/-- The position as a complex number. -/
def toC (v : Fin 2 → ℝ) : ℂ := ⟨v 0, v 1⟩

/-- C51: `Rotation(angle)` turns the plane counter-clockwise: it multiplies by `exp(i angle)`. -/
theorem C51_rotation2D (o : Order) (k : TKind) (angle : ℝ) (v : Fin 2 → ℝ) :
    ∃ w, applyT o k (rotation2D o (tRows o 2 k) (tCols o 2 k) angle) v = some w ∧
      toC w = Complex.exp (angle * Complex.I) * toC v := by
  refine ⟨_, applyT_block !![Real.cos angle, -Real.sin angle; Real.sin angle, Real.cos angle] ?_ ?_ v, ?_⟩
  · intro i j
    have := inR_lin (o := o) (k := k) i j
    rw [rotation2D]
    simp only [ent_elemF, this, and_true]
    fin_cases i <;> fin_cases j <;> simp
  · intro a b hR hab
    rw [rotation2D]
    simp only [ent_elemF, hR, and_true, ent_identityMat]
    rw [if_neg (by omega), if_neg (by omega), if_neg (by omega), if_neg (by omega)]
  · rw [Complex.exp_mul_I, ← Complex.ofReal_cos, ← Complex.ofReal_sin]
    apply Complex.ext <;> simp [toC, Matrix.mulVec, dotProduct, Fin.sum_univ_two, -Complex.ofReal_cos, -Complex.ofReal_sin] <;> ring

/-- C51: the matrix `Rotation(angle)` is orthogonal with determinant 1. -/
theorem C51_rotation2D_proper (o : Order) (angle : ℝ) :
    rotation2D o 2 2 angle * (rotation2D o 2 2 angle).transpose = 1 ∧ (rotation2D o 2 2 angle).det = 1 := by
  have e : rotation2D o 2 2 angle = match o with
      | .precede => !![Real.cos angle, -Real.sin angle; Real.sin angle, Real.cos angle]
      | .follow => !![Real.cos angle, Real.sin angle; -Real.sin angle, Real.cos angle] := by
    ext i j
    cases o <;> fin_cases i <;> fin_cases j <;> simp [rotation2D, elemF, setAt]
  have h := Real.sin_sq_add_cos_sq angle
  rw [e]
  cases o
  · constructor
    · ext i j
      fin_cases i <;> fin_cases j <;> simp [Matrix.mul_apply, Fin.sum_univ_two] <;> linarith
    · rw [Matrix.det_fin_two]; simp; linarith
  · constructor
    · ext i j
      fin_cases i <;> fin_cases j <;> simp [Matrix.mul_apply, Fin.sum_univ_two] <;> linarith
    · rw [Matrix.det_fin_two]; simp; linarith

/-- C51: angles add under composition. -/
theorem C51_rotation2D_add (o o' : Order) (k k' : TKind) (α β : ℝ) (v : Fin 2 → ℝ) :
    (applyT o k (rotation2D o (tRows o 2 k) (tCols o 2 k) α) v).bind (applyT o' k' (rotation2D o' (tRows o' 2 k') (tCols o' 2 k') β)) =
      applyT o k (rotation2D o (tRows o 2 k) (tCols o 2 k) (α + β)) v := by
  obtain ⟨w, hw, hwC⟩ := C51_rotation2D o k α v
  obtain ⟨x, hx, hxC⟩ := C51_rotation2D o' k' β w
  obtain ⟨y, hy, hyC⟩ := C51_rotation2D o k (α + β) v
  rw [hw, Option.bind_some, hx, hy]
  congr 1
  have : toC x = toC y := by
    rw [hxC, hwC, hyC, ← mul_assoc, ← Complex.exp_add]
    congr 2
    push_cast; ring
  funext i
  fin_cases i
  · exact congrArg Complex.re this
  · exact congrArg Complex.im this

open scoped Matrix in
/-- Rodrigues' formula: `v` turned by `angle` around the unit vector `u` according to the right-hand rule. -/
noncomputable def rodrigues (u : Fin 3 → ℝ) (angle : ℝ) (v : Fin 3 → ℝ) : Fin 3 → ℝ :=
  Real.cos angle • v + Real.sin angle • (u ⨯₃ v) + ((1 - Real.cos angle) * (u ⬝ᵥ v)) • u

/-- Its matrix. -/
private noncomputable def rodMat (u : Fin 3 → ℝ) (angle : ℝ) : Matrix (Fin 3) (Fin 3) ℝ :=
  let C := Real.cos angle
  let S := Real.sin angle
  !![C + (1 - C) * u 0 * u 0, -S * u 2 + (1 - C) * u 0 * u 1, S * u 1 + (1 - C) * u 0 * u 2;
     S * u 2 + (1 - C) * u 1 * u 0, C + (1 - C) * u 1 * u 1, -S * u 0 + (1 - C) * u 1 * u 2;
     -S * u 1 + (1 - C) * u 2 * u 0, S * u 0 + (1 - C) * u 2 * u 1, C + (1 - C) * u 2 * u 2]

private theorem rodMat_mulVec (u : Fin 3 → ℝ) (angle : ℝ) (v : Fin 3 → ℝ) : (rodMat u angle).mulVec v = rodrigues u angle v := by
  funext i
  rw [Matrix.mulVec, dotProduct, Fin.sum_univ_three, rodrigues, cross_apply, dotProduct, Fin.sum_univ_three]
  fin_cases i <;> simp [rodMat, Matrix.vecHead, Matrix.vecTail] <;> ring

/-- C51: `RotationAxisAngle(axis, angle)` is Rodrigues' rotation, for every order and shape. -/
theorem C51_axis_angle (o : Order) (k : TKind) (u : Fin 3 → ℝ) (hu : length u = 1) (angle : ℝ) (v : Fin 3 → ℝ) :
    ∃ m, rotationAxisAngle o (tRows o 3 k) (tCols o 3 k) u angle = some m ∧ applyT o k m v = some (rodrigues u angle v) := by
  refine ⟨_, if_pos (by rw [hu]; norm_num), ?_⟩
  rw [← rodMat_mulVec]
  apply applyT_block
  · intro i j
    rw [rotationMatrixAxisAngle, ent_insert_fromPrecede _ _ _ _ _ (inR_lin i j), dif_pos ⟨i.isLt, j.isLt⟩, identityMat_eq_one,
      Matrix.add_apply, Matrix.mul_apply, Fin.sum_univ_one]
    fin_cases i <;> fin_cases j <;> simp [rodMat]
  · intro a b hR hab
    rw [rotationMatrixAxisAngle, ent_insert_fromPrecede _ _ _ _ _ hR, dif_neg (by omega), ent_identityMat]
    simp only [hR, and_true]

/-- C51: an axis that is not approximately a unit vector fails the assertion. -/
theorem C51_axis_angle_rejects (o : Order) (r c : ℕ) (l : QLayout) (u : Fin 3 → ℝ) (angle : ℝ) (hu : 0.05 ≤ |1 - length u|) :
    rotationAxisAngle o r c u angle = none ∧ rotationAxisAngleQ l u angle = none :=
  ⟨if_neg (not_lt.2 hu), if_neg (not_lt.2 hu)⟩

/-- C51: `RotationX/Y/Z` and `RotationAxis(angle, axis)` are Rodrigues' rotation around the coordinate axis. -/
theorem C51_single_axis (o : Order) (k : TKind) (axis : Fin 3) (angle : ℝ) (v : Fin 3 → ℝ) :
    ∃ m, rotationSingleAxis o (tRows o 3 k) (tCols o 3 k) angle (axis.val : ℤ) = some m ∧
      applyT o k m v = some (rodrigues (Pi.single axis 1) angle v) := by
  refine ⟨_, if_pos ⟨by omega, by omega⟩, ?_⟩
  rw [← rodMat_mulVec]
  apply applyT_block
  · intro i j
    have := inR_lin (o := o) (k := k) i j
    fin_cases axis <;> simp only [Fin.zero_eta, Fin.mk_one, Fin.reduceFinMk, Fin.val_zero, Fin.val_one, Fin.val_two, Nat.cast_zero,
        Nat.cast_one, Nat.cast_ofNat, one_ne_zero, if_true, if_false, OfNat.ofNat_ne_zero, OfNat.ofNat_ne_one, Int.reduceEq] <;>
      simp only [ent_elemF, this, and_true, ent_identityMat] <;>
      fin_cases i <;> fin_cases j <;> simp [rodMat]
  · intro a b hR hab
    fin_cases axis <;> simp only [Fin.zero_eta, Fin.mk_one, Fin.reduceFinMk, Fin.val_zero, Fin.val_one, Fin.val_two, Nat.cast_zero,
        Nat.cast_one, Nat.cast_ofNat, one_ne_zero, if_true, if_false, OfNat.ofNat_ne_zero, OfNat.ofNat_ne_one, Int.reduceEq] <;>
      simp only [ent_elemF, hR, and_true, ent_identityMat] <;>
      rw [if_neg (by omega), if_neg (by omega), if_neg (by omega), if_neg (by omega)]

/-- C51: an axis index other than 0, 1, 2 fails the assertion. -/
theorem C51_single_axis_rejects (o : Order) (r c : ℕ) (angle : ℝ) (axis : ℤ) :
    rotationSingleAxis o r c angle axis = none ↔ axis < 0 ∨ 3 ≤ axis := by
  rw [rotationSingleAxis]
  split_ifs with h
  · simp only [reduceCtorEq, false_iff]; omega
  · simp only [true_iff]; omega

private theorem sq_of_length {u : Fin 3 → ℝ} (hu : length u = 1) : u 0 ^ 2 + u 1 ^ 2 + u 2 ^ 2 = 1 := by
  have := Quat.length_fin3 u
  rw [hu] at this
  have h0 : 0 ≤ u 0 ^ 2 + u 1 ^ 2 + u 2 ^ 2 := by positivity
  rw [← Real.sq_sqrt h0]
  first
  | rw [← this]; norm_num
  | (rw [show u 0 ^ 2 + u 1 ^ 2 + u 2 ^ 2 = u 0 * u 0 + u 1 * u 1 + u 2 * u 2 by ring, ← this]; norm_num)

/-- The quaternion of the half angle has that rotation matrix. -/
private theorem rotMat_axisAngle (l : QLayout) {u : Fin 3 → ℝ} (hu : length u = 1) (angle : ℝ) :
    (rotationQuatAxisAngle l u angle).qLengthSquared = 1 ∧ Quat.rotMat (rotationQuatAxisAngle l u angle) = rodMat u angle := by
  have h := sq_of_length hu
  have hcs := Real.sin_sq_add_cos_sq (angle / 2)
  have hC : Real.cos angle = 2 * Real.cos (angle / 2) ^ 2 - 1 := by rw [← Real.cos_two_mul]; congr 1; ring
  have hS : Real.sin angle = 2 * Real.sin (angle / 2) * Real.cos (angle / 2) := by rw [← Real.sin_two_mul]; congr 1; ring
  have e0 : (rotationQuatAxisAngle l u angle).s = Real.cos (angle / 2) := by simp [rotationQuatAxisAngle]
  have e1 : (rotationQuatAxisAngle l u angle).i = Real.sin (angle / 2) * u 0 := by simp [rotationQuatAxisAngle]
  have e2 : (rotationQuatAxisAngle l u angle).j = Real.sin (angle / 2) * u 1 := by simp [rotationQuatAxisAngle]
  have e3 : (rotationQuatAxisAngle l u angle).k = Real.sin (angle / 2) * u 2 := by simp [rotationQuatAxisAngle]
  have hN : (rotationQuatAxisAngle l u angle).qLengthSquared = 1 := by
    rw [Quat.qLengthSquared_eq, e0, e1, e2, e3]
    linear_combination Real.sin (angle / 2) ^ 2 * h + hcs
  refine ⟨hN, ?_⟩
  generalize Real.sin (angle / 2) = s at *
  generalize Real.cos (angle / 2) = c at *
  ext a b
  fin_cases a <;> fin_cases b <;> simp only [Quat.rotMat, hN, rodMat, hC, hS, e0, e1, e2, e3, div_one, Matrix.of_apply,
    Matrix.cons_val, Fin.zero_eta, Fin.mk_one, Fin.reduceFinMk, Fin.isValue]
  · linear_combination (-s ^ 2) * h + (-1 + 2 * u 0 ^ 2) * hcs
  · linear_combination (2 * u 0 * u 1) * hcs
  · linear_combination (2 * u 0 * u 2) * hcs
  · linear_combination (2 * u 0 * u 1) * hcs
  · linear_combination (-s ^ 2) * h + (-1 + 2 * u 1 ^ 2) * hcs
  · linear_combination (2 * u 1 * u 2) * hcs
  · linear_combination (2 * u 0 * u 2) * hcs
  · linear_combination (2 * u 1 * u 2) * hcs
  · linear_combination (-s ^ 2) * h + (-1 + 2 * u 2 ^ 2) * hcs

/-- C51: Rodrigues' rotation around a unit vector is given by an orthogonal matrix of determinant 1 that fixes the axis and has trace
`1 + 2 cos(angle)`. -/
theorem C51_proper (u : Fin 3 → ℝ) (hu : length u = 1) (angle : ℝ) :
    ∃ R : Matrix (Fin 3) (Fin 3) ℝ, (∀ v, rodrigues u angle v = R.mulVec v) ∧ R * R.transpose = 1 ∧ R.det = 1 ∧ R.mulVec u = u ∧
      R.trace = 1 + 2 * Real.cos angle := by
  have h := sq_of_length hu
  obtain ⟨hN, e⟩ := rotMat_axisAngle .scalarFirst hu angle
  have hN0 : (rotationQuatAxisAngle .scalarFirst u angle).qLengthSquared ≠ 0 := by rw [hN]; exact one_ne_zero
  refine ⟨rodMat u angle, fun v => (rodMat_mulVec u angle v).symm, ?_, ?_, ?_, ?_⟩
  · rw [← e]; exact Quat.rotMat_orth hN0
  · rw [← e]; exact Quat.rotMat_det hN0
  · rw [rodMat_mulVec, rodrigues]
    have : dotProduct u u = 1 := by rw [dotProduct, Fin.sum_univ_three]; linear_combination h
    rw [cross_self, this, smul_zero, mul_one, add_zero, ← add_smul]
    simp
  · rw [Matrix.trace_fin_three]
    simp [rodMat]
    linear_combination (1 - Real.cos angle) * h

/-- A unit axis that is not a coordinate axis. -/
private theorem example_axis : length (![3 / 5, 0, 4 / 5] : Fin 3 → ℝ) = 1 := by
  rw [Quat.length_fin3, Real.sqrt_eq_one]
  simp; norm_num

example : ∃ R : Matrix (Fin 3) (Fin 3) ℝ, (∀ v, rodrigues ![3 / 5, 0, 4 / 5] 2 v = R.mulVec v) ∧ R.det = 1 := by
  obtain ⟨R, h, _, h', _⟩ := C51_proper _ example_axis 2
  exact ⟨R, h, h'⟩

/-! ## C52 -/

/-- C52: the quaternion of `RotationAxisAngle` has unit length and rotates like the matrix. -/
theorem C52_axis_angle (l : QLayout) (o : Order) (k : TKind) (u : Fin 3 → ℝ) (hu : length u = 1) (angle : ℝ) (v : Fin 3 → ℝ) :
    ∃ q m, rotationAxisAngleQ l u angle = some q ∧ rotationAxisAngle o (tRows o 3 k) (tCols o 3 k) u angle = some m ∧
      q.qLength = 1 ∧ Quat.rotate q v = applyT o k m v ∧ Quat.rotate q v = some (rodrigues u angle v) := by
  obtain ⟨m, hm, hv⟩ := C51_axis_angle o k u hu angle v
  obtain ⟨hN, e⟩ := rotMat_axisAngle l hu angle
  have hr : Quat.rotate (rotationQuatAxisAngle l u angle) v = some (rodrigues u angle v) := by
    rw [Quat.rotate_eq_rotMat (by rw [hN]; exact one_ne_zero), e, rodMat_mulVec]
  refine ⟨_, m, if_pos (by rw [hu]; norm_num), hm, ?_, by rw [hr, hv], hr⟩
  have h2 := (C45_length (rotationQuatAxisAngle l u angle) (rotationQuatAxisAngle l u angle) 1 1 one_pos le_rfl).2.2.2.2
  rw [hN] at h2
  have h0 : 0 ≤ (rotationQuatAxisAngle l u angle).qLength := Real.sqrt_nonneg _
  nlinarith

private theorem length_single (a : Fin 3) : length (Pi.single a 1 : Fin 3 → ℝ) = 1 := by
  rw [Quat.length_fin3, Real.sqrt_eq_one]
  fin_cases a <;> simp

private theorem unitAxis_fin (a : Fin 3) : unitAxis (a.val : ℤ) = some (Pi.single a 1) := by
  rw [unitAxis, if_pos ⟨by omega, by omega⟩]
  congr 1
  funext i
  by_cases e : i = a
  · subst e; simp
  · have : (i.val : ℤ) ≠ a.val := fun h => e (Fin.ext (by exact_mod_cast h))
    simp [e, this, zeroVec]

private theorem rotate_rod (l : QLayout) {u : Fin 3 → ℝ} (hu : length u = 1) (angle : ℝ) (v : Fin 3 → ℝ) :
    Quat.rotate (rotationQuatAxisAngle l u angle) v = some (rodrigues u angle v) := by
  obtain ⟨hN, e⟩ := rotMat_axisAngle l hu angle
  rw [Quat.rotate_eq_rotMat (by rw [hN]; exact one_ne_zero), e, rodMat_mulVec]

private theorem quat_ne_zero (l : QLayout) {u : Fin 3 → ℝ} (hu : length u = 1) (angle : ℝ) :
    rotationQuatAxisAngle l u angle ≠ Quat.mk4 l 0 0 0 0 := by
  intro h
  have h1 := (rotMat_axisAngle l hu angle).1
  rw [h, Quat.qLengthSquared_eq] at h1
  simp [Quat.s_eq, Quat.i_eq, Quat.j_eq, Quat.k_eq] at h1

/-- C52: the same for `RotationX/Y/Z` and `RotationAxis`. -/
theorem C52_single_axis (l : QLayout) (o : Order) (k : TKind) (axis : Fin 3) (angle : ℝ) (v : Fin 3 → ℝ) :
    ∃ q m, rotationSingleAxisQ l angle (axis.val : ℤ) = some q ∧
      rotationSingleAxis o (tRows o 3 k) (tCols o 3 k) angle (axis.val : ℤ) = some m ∧ Quat.rotate q v = applyT o k m v := by
  obtain ⟨m, hm, hv⟩ := C51_single_axis o k axis angle v
  refine ⟨rotationQuatAxisAngle l (Pi.single axis 1) angle, m, by rw [rotationSingleAxisQ, unitAxis_fin]; rfl, hm, ?_⟩
  rw [hv, rotate_rod l (length_single axis)]

/-- C51: `RotationX`, `RotationY` and `RotationZ`, as matrices and as quaternions, turn by the angle in the plane of the other two coordinates:
Y towards Z, Z towards X, X towards Y. -/
theorem C51_named_axes (l : QLayout) (o : Order) (k : TKind) (angle : ℝ) (v : Fin 3 → ℝ) :
    (∃ m q, rotationX o (tRows o 3 k) (tCols o 3 k) angle = some m ∧ rotationXQ l angle = some q ∧
      applyT o k m v = some ![v 0, Real.cos angle * v 1 - Real.sin angle * v 2, Real.sin angle * v 1 + Real.cos angle * v 2] ∧
      Quat.rotate q v = some ![v 0, Real.cos angle * v 1 - Real.sin angle * v 2, Real.sin angle * v 1 + Real.cos angle * v 2]) ∧
    (∃ m q, rotationY o (tRows o 3 k) (tCols o 3 k) angle = some m ∧ rotationYQ l angle = some q ∧
      applyT o k m v = some ![Real.sin angle * v 2 + Real.cos angle * v 0, v 1, Real.cos angle * v 2 - Real.sin angle * v 0] ∧
      Quat.rotate q v = some ![Real.sin angle * v 2 + Real.cos angle * v 0, v 1, Real.cos angle * v 2 - Real.sin angle * v 0]) ∧
    (∃ m q, rotationZ o (tRows o 3 k) (tCols o 3 k) angle = some m ∧ rotationZQ l angle = some q ∧
      applyT o k m v = some ![Real.cos angle * v 0 - Real.sin angle * v 1, Real.sin angle * v 0 + Real.cos angle * v 1, v 2] ∧
      Quat.rotate q v = some ![Real.cos angle * v 0 - Real.sin angle * v 1, Real.sin angle * v 0 + Real.cos angle * v 1, v 2]) := by
  have key : ∀ (axis : Fin 3) (w : Fin 3 → ℝ), rodrigues (Pi.single axis 1) angle v = w →
      ∃ m q, rotationSingleAxis o (tRows o 3 k) (tCols o 3 k) angle (axis.val : ℤ) = some m ∧ rotationSingleAxisQ l angle (axis.val : ℤ) = some q ∧
        applyT o k m v = some w ∧ Quat.rotate q v = some w := by
    rintro axis w rfl
    obtain ⟨m, hm, hv⟩ := C51_single_axis o k axis angle v
    refine ⟨m, rotationQuatAxisAngle l (Pi.single axis 1) angle, hm, by rw [rotationSingleAxisQ, unitAxis_fin]; rfl, hv, ?_⟩
    rw [rotate_rod l (length_single axis)]
  have e0 : rodrigues (Pi.single 0 1) angle v = ![v 0, Real.cos angle * v 1 - Real.sin angle * v 2, Real.sin angle * v 1 + Real.cos angle * v 2] := by
    rw [← rodMat_mulVec]
    funext i
    fin_cases i <;> simp [Matrix.mulVec, dotProduct, Fin.sum_univ_three, rodMat] <;> ring
  have e1 : rodrigues (Pi.single 1 1) angle v = ![Real.sin angle * v 2 + Real.cos angle * v 0, v 1, Real.cos angle * v 2 - Real.sin angle * v 0] := by
    rw [← rodMat_mulVec]
    funext i
    fin_cases i <;> simp [Matrix.mulVec, dotProduct, Fin.sum_univ_three, rodMat] <;> ring
  have e2 : rodrigues (Pi.single 2 1) angle v = ![Real.cos angle * v 0 - Real.sin angle * v 1, Real.sin angle * v 0 + Real.cos angle * v 1, v 2] := by
    rw [← rodMat_mulVec]
    funext i
    fin_cases i <;> simp [Matrix.mulVec, dotProduct, Fin.sum_univ_three, rodMat] <;> ring
  exact ⟨key 0 _ e0, key 1 _ e1, key 2 _ e2⟩

/-- C51: rotations around the same axis add their angles. -/
theorem C51_add (u : Fin 3 → ℝ) (hu : length u = 1) (α β : ℝ) (v : Fin 3 → ℝ) :
    rodrigues u β (rodrigues u α v) = rodrigues u (α + β) v := by
  have h := sq_of_length hu
  obtain ⟨w, hw, hc⟩ := C46_compose (rotationQuatAxisAngle .scalarFirst u β) (rotationQuatAxisAngle .scalarFirst u α)
    (quat_ne_zero _ hu β) (quat_ne_zero _ hu α) v
  rw [rotate_rod _ hu] at hw
  obtain rfl := Option.some.inj hw
  rw [rotate_rod _ hu] at hc
  have e : Quat.mul (rotationQuatAxisAngle .scalarFirst u β) (rotationQuatAxisAngle .scalarFirst u α) =
      rotationQuatAxisAngle .scalarFirst u (α + β) := by
    apply Quat.toH_inj
    have hC : Real.cos ((α + β) / 2) = Real.cos (α / 2) * Real.cos (β / 2) - Real.sin (α / 2) * Real.sin (β / 2) := by rw [add_div]; exact Real.cos_add (α / 2) (β / 2)
    have hS : Real.sin ((α + β) / 2) = Real.sin (α / 2) * Real.cos (β / 2) + Real.cos (α / 2) * Real.sin (β / 2) := by rw [add_div]; exact Real.sin_add (α / 2) (β / 2)
    rw [Quat.toH_mul]
    apply Quaternion.ext <;> simp only [Quaternion.re_mul, Quaternion.imI_mul, Quaternion.imJ_mul, Quaternion.imK_mul, Quat.re_toH, Quat.imI_toH, Quat.imJ_toH,
      Quat.imK_toH, rotationQuatAxisAngle, Quat.s_ofParts, Quat.i_ofParts, Quat.j_ofParts, Quat.k_ofParts, hC, hS]
    · linear_combination (-Real.sin (α / 2) * Real.sin (β / 2)) * h
    · ring
    · ring
    · ring
  rw [e, rotate_rod _ hu] at hc
  exact (Option.some.inj hc).symm

/-! ## C53 -/

/-- C53: `RotationAxis3<a, b, c>` rotates around `a` first, then `b`, then `c`, as a matrix of any order and shape. -/
theorem C53_matrix (o : Order) (k : TKind) (axes : Fin 3 → Fin 3) (angles : Fin 3 → ℝ) (v : Fin 3 → ℝ) :
    ∃ m, rotationTriAxis o (tRows o 3 k) (tCols o 3 k) angles (fun i => ((axes i).val : ℤ)) = some m ∧
      applyT o k m v = some (rodrigues (Pi.single (axes 2) 1) (angles 2)
        (rodrigues (Pi.single (axes 1) 1) (angles 1) (rodrigues (Pi.single (axes 0) 1) (angles 0) v))) := by
  have hs : ∀ t, ∃ m, rotationSingleAxis o 3 3 (angles t) ((axes t).val : ℤ) = some m ∧
      fromPrecede o m = rodMat (Pi.single (axes t) 1) (angles t) := by
    intro t
    cases o
    · obtain ⟨m, hm, -⟩ := C51_single_axis .follow .linear (axes t) (angles t) 0
      refine ⟨m, hm, Matrix.ext_of_mulVec_single fun i => ?_⟩
      obtain ⟨m2, hm2, hv2⟩ := C51_single_axis .follow .linear (axes t) (angles t) (Pi.single i 1)
      obtain rfl := Option.some.inj (hm.symm.trans hm2)
      rw [rodMat_mulVec, fromPrecede, Matrix.mulVec_transpose]
      exact Option.some.inj hv2
    · obtain ⟨m, hm, -⟩ := C51_single_axis .precede .linear (axes t) (angles t) 0
      refine ⟨m, hm, Matrix.ext_of_mulVec_single fun i => ?_⟩
      obtain ⟨m2, hm2, hv2⟩ := C51_single_axis .precede .linear (axes t) (angles t) (Pi.single i 1)
      obtain rfl := Option.some.inj (hm.symm.trans hm2)
      rw [rodMat_mulVec, fromPrecede]
      exact Option.some.inj hv2
  obtain ⟨m0, h0, e0⟩ := hs 0
  obtain ⟨m1, h1, e1⟩ := hs 1
  obtain ⟨m2, h2, e2⟩ := hs 2
  refine ⟨_, by rw [rotationTriAxis, h0, Option.bind_some, h1, Option.bind_some, h2, Option.bind_some], ?_⟩
  rw [← rodMat_mulVec, ← rodMat_mulVec, ← rodMat_mulVec, ← e0, ← e1, ← e2, Matrix.mulVec_mulVec, Matrix.mulVec_mulVec]
  have hins : ∀ x y z : Matrix (Fin 3) (Fin 3) ℝ, triProduct o x y z =
      fromPrecede o (fromPrecede o z * (fromPrecede o y * fromPrecede o x)) := by
    intro x y z
    cases o
    · simp only [triProduct, fromPrecede, Matrix.transpose_mul, Matrix.transpose_transpose]
    · simp only [triProduct, fromPrecede, Matrix.mul_assoc]
  rw [hins, Matrix.mul_assoc]
  apply applyT_block
  · intro i j
    rw [ent_insert_fromPrecede _ _ _ _ _ (inR_lin i j), dif_pos ⟨i.isLt, j.isLt⟩]
  · intro a b hR hab
    rw [ent_insert_fromPrecede _ _ _ _ _ hR, dif_neg (by omega), ent_identityMat]
    simp only [hR, and_true]

/-- C53: and as a quaternion; C52: matrix and quaternion rotate alike. -/
theorem C53_quat (l : QLayout) (axes : Fin 3 → Fin 3) (angles : Fin 3 → ℝ) (v : Fin 3 → ℝ) :
    ∃ q, rotationTriAxisQ l angles (fun i => ((axes i).val : ℤ)) = some q ∧
      Quat.rotate q v = some (rodrigues (Pi.single (axes 2) 1) (angles 2)
        (rodrigues (Pi.single (axes 1) 1) (angles 1) (rodrigues (Pi.single (axes 0) 1) (angles 0) v))) := by
  refine ⟨_, by rw [rotationTriAxisQ, unitAxis_fin, Option.bind_some, unitAxis_fin, Option.bind_some, unitAxis_fin, Option.bind_some], ?_⟩
  have hu := fun t => length_single (axes t)
  have hne := fun t => quat_ne_zero l (hu t) (angles t)
  have h21 : Quat.mul (rotationQuatAxisAngle l (Pi.single (axes 2) 1) (angles 2)) (rotationQuatAxisAngle l (Pi.single (axes 1) 1) (angles 1))
      ≠ Quat.mk4 l 0 0 0 0 := by
    intro h
    have := congrArg Quat.toH h
    rw [Quat.toH_mul, Quat.toH_mk4] at this
    rcases mul_eq_zero.1 (this.trans (rfl : _ = (0 : Quaternion ℝ))) with h' | h'
    · exact hne 2 (Quat.toH_inj (by rw [h', Quat.toH_mk4]; rfl))
    · exact hne 1 (Quat.toH_inj (by rw [h', Quat.toH_mk4]; rfl))
  obtain ⟨w, hw, hc⟩ := C46_compose _ _ h21 (hne 0) v
  rw [hc]
  rw [rotate_rod l (hu 0)] at hw
  obtain rfl := Option.some.inj hw
  obtain ⟨w, hw, hc⟩ := C46_compose _ _ (hne 2) (hne 1) (rodrigues (Pi.single (axes 0) 1) (angles 0) v)
  rw [hc]
  rw [rotate_rod l (hu 1)] at hw
  obtain rfl := Option.some.inj hw
  rw [rotate_rod l (hu 2)]

/-- C52: the three-axis rotation is the same as a matrix and as a quaternion. -/
theorem C52_tri_axis (l : QLayout) (o : Order) (k : TKind) (axes : Fin 3 → Fin 3) (angles : Fin 3 → ℝ) (v : Fin 3 → ℝ) :
    ∃ q m, rotationTriAxisQ l angles (fun i => ((axes i).val : ℤ)) = some q ∧
      rotationTriAxis o (tRows o 3 k) (tCols o 3 k) angles (fun i => ((axes i).val : ℤ)) = some m ∧ Quat.rotate q v = applyT o k m v := by
  obtain ⟨q, hq, h1⟩ := C53_quat l axes angles v
  obtain ⟨m, hm, h2⟩ := C53_matrix o k axes angles v
  exact ⟨q, m, hq, hm, by rw [h1, h2]⟩

/-- C53: `RotationEuler(z1, x2, z3)` is Z, then X, then Z; `RotationRPY(x1, y2, z3)` is X, then Y, then Z. -/
theorem C53_named (l : QLayout) (o : Order) (k : TKind) (a b c : ℝ) (v : Fin 3 → ℝ) :
    (∃ m q, rotationEuler o (tRows o 3 k) (tCols o 3 k) a b c = some m ∧ rotationEulerQ l a b c = some q ∧
      applyT o k m v = some (rodrigues ![0, 0, 1] c (rodrigues ![1, 0, 0] b (rodrigues ![0, 0, 1] a v))) ∧
      Quat.rotate q v = some (rodrigues ![0, 0, 1] c (rodrigues ![1, 0, 0] b (rodrigues ![0, 0, 1] a v)))) ∧
    (∃ m q, rotationRPY o (tRows o 3 k) (tCols o 3 k) a b c = some m ∧ rotationRPYQ l a b c = some q ∧
      applyT o k m v = some (rodrigues ![0, 0, 1] c (rodrigues ![0, 1, 0] b (rodrigues ![1, 0, 0] a v))) ∧
      Quat.rotate q v = some (rodrigues ![0, 0, 1] c (rodrigues ![0, 1, 0] b (rodrigues ![1, 0, 0] a v)))) := by
  have s0 : (Pi.single 0 1 : Fin 3 → ℝ) = ![1, 0, 0] := by funext i; fin_cases i <;> simp
  have s1 : (Pi.single 1 1 : Fin 3 → ℝ) = ![0, 1, 0] := by funext i; fin_cases i <;> simp
  have s2 : (Pi.single 2 1 : Fin 3 → ℝ) = ![0, 0, 1] := by funext i; fin_cases i <;> simp
  constructor
  · obtain ⟨m, hm, h1⟩ := C53_matrix o k ![2, 0, 2] ![a, b, c] v
    obtain ⟨q, hq, h2⟩ := C53_quat l ![2, 0, 2] ![a, b, c] v
    have e : (fun i => (((![2, 0, 2] : Fin 3 → Fin 3) i).val : ℤ)) = ![2, 0, 2] := by funext i; fin_cases i <;> rfl
    rw [e] at hm hq
    simp only [Matrix.cons_val, s0, s2] at h1 h2
    exact ⟨m, q, hm, hq, h1, h2⟩
  · obtain ⟨m, hm, h1⟩ := C53_matrix o k ![0, 1, 2] ![a, b, c] v
    obtain ⟨q, hq, h2⟩ := C53_quat l ![0, 1, 2] ![a, b, c] v
    have e : (fun i => (((![0, 1, 2] : Fin 3 → Fin 3) i).val : ℤ)) = ![0, 1, 2] := by funext i; fin_cases i <;> rfl
    rw [e] at hm hq
    simp only [Matrix.cons_val, s0, s1, s2] at h1 h2
    exact ⟨m, q, hm, hq, h1, h2⟩

/-- The order matters: a quarter turn around Z and then around X differs from the opposite order. -/
example : rodrigues ![1, 0, 0] (Real.pi / 2) (rodrigues ![0, 0, 1] (Real.pi / 2) ![1, 0, 0]) ≠
    rodrigues ![0, 0, 1] (Real.pi / 2) (rodrigues ![1, 0, 0] (Real.pi / 2) ![1, 0, 0]) := by
  intro h
  have := congrFun h 2
  simp [rodrigues, cross_apply, Matrix.vecHead, Matrix.vecTail] at this

end Mathter.Props
