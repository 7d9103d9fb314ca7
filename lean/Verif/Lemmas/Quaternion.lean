import Verif.Lemmas.VectorMath
import Verif.Props.VectorMath
import Verif.Spec.Quaternion

/-! Helper lemmas for quaternions: reading and writing the canonical elements, and the map to Mathlib's quaternions. -/

namespace Mathter
open scoped Quaternion
universe u
variable {K : Type u}

namespace Quat
variable {l l1 l2 : QLayout}

theorem setCanonical_elements (q : Quat K l) (v : Fin 4 → K) (t : Fin 4) : (setCanonical q v).elements (canonIdx l t) = v t := by
  unfold setCanonical
  rw [forUp_step (by omega), forUp_step (by omega), forUp_step (by omega), forUp_step (by omega), forUp_ge (by omega)]
  cases l <;> fin_cases t <;> simp [canonIdx, Function.update]

theorem canonIdx_surj (l : QLayout) (e : Fin 4) : ∃ t, canonIdx l t = e := by
  cases l <;> fin_cases e
  · exact ⟨0, rfl⟩
  · exact ⟨1, rfl⟩
  · exact ⟨2, rfl⟩
  · exact ⟨3, rfl⟩
  · exact ⟨1, rfl⟩
  · exact ⟨2, rfl⟩
  · exact ⟨3, rfl⟩
  · exact ⟨0, rfl⟩

theorem ext_canonical {p q : Quat K l} (h : p.canonical = q.canonical) : p = q := by
  apply Quat.ext
  funext e
  obtain ⟨t, rfl⟩ := canonIdx_surj l e
  exact congrFun h t

@[simp] theorem canonical_setCanonical (q : Quat K l) (v : Fin 4 → K) : (setCanonical q v).canonical = v := by
  funext t; exact setCanonical_elements q v t

@[simp] theorem canonical_ofCanonical [Zero K] (v : Fin 4 → K) : (ofCanonical l v).canonical = v := canonical_setCanonical _ v

theorem s_eq (q : Quat K l) : q.s = q.canonical 0 := rfl
theorem i_eq (q : Quat K l) : q.i = q.canonical 1 := rfl
theorem j_eq (q : Quat K l) : q.j = q.canonical 2 := rfl
theorem k_eq (q : Quat K l) : q.k = q.canonical 3 := rfl
theorem vec_eq (q : Quat K l) : q.vec = fun t => q.canonical t.succ := rfl

theorem vec_eq' (q : Quat K l) : q.vec = ![q.i, q.j, q.k] := by
  funext t; fin_cases t <;> rfl

@[simp] theorem canonical_mk4 [Zero K] (s x y z : K) : (mk4 l s x y z).canonical = ![s, x, y, z] := by simp [mk4]
@[simp] theorem canonical_ofParts [Zero K] (s : K) (v : Fin 3 → K) : (ofParts l s v).canonical = Fin.cons s v := by simp [ofParts]
@[simp] theorem canonical_ofVec [Zero K] (v : Fin 3 → K) : (ofVec l v).canonical = Fin.cons 0 v := by simp [ofVec]
@[simp] theorem canonical_convert [Zero K] (q : Quat K l1) : (convert l2 q).canonical = q.canonical := by simp [convert]

section ring
variable [CommRing K]

@[simp] theorem re_toH (q : Quat K l) : (toH q).re = q.s := rfl
@[simp] theorem imI_toH (q : Quat K l) : (toH q).imI = q.i := rfl
@[simp] theorem imJ_toH (q : Quat K l) : (toH q).imJ = q.j := rfl
@[simp] theorem imK_toH (q : Quat K l) : (toH q).imK = q.k := rfl

theorem toH_inj {p q : Quat K l} (h : toH p = toH q) : p = q := by
  apply ext_canonical
  have h0 := congrArg QuaternionAlgebra.re h
  have h1 := congrArg QuaternionAlgebra.imI h
  have h2 := congrArg QuaternionAlgebra.imJ h
  have h3 := congrArg QuaternionAlgebra.imK h
  funext t
  fin_cases t
  · exact h0
  · exact h1
  · exact h2
  · exact h3

theorem toH_mul (p : Quat K l1) (q : Quat K l2) : toH (mul p q) = toH p * toH q := by
  apply Quaternion.ext <;>
  simp [s_eq, i_eq, j_eq, k_eq, mul, sw] <;> ring

theorem toH_add (p : Quat K l1) (q : Quat K l2) : toH (add p q) = toH p + toH q := by
  apply Quaternion.ext <;> simp [s_eq, i_eq, j_eq, k_eq, add]

theorem toH_sub (p : Quat K l1) (q : Quat K l2) : toH (sub p q) = toH p - toH q := by
  apply Quaternion.ext <;> simp [s_eq, i_eq, j_eq, k_eq, sub]

theorem toH_conj (q : Quat K l) : toH (conj q) = star (toH q) := by
  apply Quaternion.ext <;> simp [s_eq, i_eq, j_eq, k_eq, conj]

theorem toH_mk4 (a x y z : K) : toH (mk4 l a x y z) = ⟨a, x, y, z⟩ := by
  apply Quaternion.ext <;> simp [s_eq, i_eq, j_eq, k_eq]

theorem toH_ofVec (v : Fin 3 → K) : toH (ofVec l v) = ⟨0, v 0, v 1, v 2⟩ := by
  apply Quaternion.ext <;> simp [s_eq, i_eq, j_eq, k_eq] <;> rfl

@[simp] theorem s_ofVec (v : Fin 3 → K) : (ofVec l v).s = 0 := by simp [s_eq]
@[simp] theorem i_ofVec (v : Fin 3 → K) : (ofVec l v).i = v 0 := by rw [i_eq, canonical_ofVec]; rfl
@[simp] theorem j_ofVec (v : Fin 3 → K) : (ofVec l v).j = v 1 := by rw [j_eq, canonical_ofVec]; rfl
@[simp] theorem k_ofVec (v : Fin 3 → K) : (ofVec l v).k = v 2 := by rw [k_eq, canonical_ofVec]; rfl
@[simp] theorem s_ofParts (a : K) (v : Fin 3 → K) : (ofParts l a v).s = a := by simp [s_eq]
@[simp] theorem i_ofParts (a : K) (v : Fin 3 → K) : (ofParts l a v).i = v 0 := by rw [i_eq, canonical_ofParts]; rfl
@[simp] theorem j_ofParts (a : K) (v : Fin 3 → K) : (ofParts l a v).j = v 1 := by rw [j_eq, canonical_ofParts]; rfl
@[simp] theorem k_ofParts (a : K) (v : Fin 3 → K) : (ofParts l a v).k = v 2 := by rw [k_eq, canonical_ofParts]; rfl
@[simp] theorem vec_ofParts (a : K) (v : Fin 3 → K) : (ofParts l a v).vec = v := by
  rw [vec_eq']; funext t; fin_cases t <;> simp

theorem toH_convert (q : Quat K l1) : toH (convert l2 q) = toH q := by
  apply Quaternion.ext <;> simp [s_eq, i_eq, j_eq, k_eq]

end ring

theorem toH_divScalar [Field K] (q : Quat K l) (a : K) : toH (divScalar q a) = a⁻¹ • toH q := by
  apply Quaternion.ext <;> simp [s, i, j, k, divScalar, div_eq_mul_inv, mul_comm]

theorem sum_elements {M : Type*} [AddCommMonoid M] (q : Quat K l) (f : K → M) :
    ∑ t, f (q.elements t) = f q.s + f q.i + f q.j + f q.k := by
  rw [Fin.sum_univ_four]
  cases l
  · rfl
  · simp only [s, i, j, k, canonIdx]
    change f (q.elements 0) + f (q.elements 1) + f (q.elements 2) + f (q.elements 3) =
      f (q.elements 3) + f (q.elements 0) + f (q.elements 1) + f (q.elements 2)
    abel

theorem qLengthSquared_eq (q : Quat ℝ l) : q.qLengthSquared = q.s ^ 2 + q.i ^ 2 + q.j ^ 2 + q.k ^ 2 := by
  rw [qLengthSquared, lengthSquared_eq_sum, ← sum_elements q fun x => x ^ 2]
  simp

theorem qLengthSquared_normSq (q : Quat ℝ l) : q.qLengthSquared = Quaternion.normSq (toH q) := by
  rw [qLengthSquared_eq, Quaternion.normSq_def']
  rfl

theorem qLength_eq_norm (q : Quat ℝ l) : q.qLength = ‖toH q‖ := by
  rw [qLength, length, ← qLengthSquared, qLengthSquared_normSq, Quaternion.normSq_eq_norm_mul_self, Real.sqrt_mul_self (norm_nonneg _)]

theorem toH_ne_zero {q : Quat ℝ l} : q.qLengthSquared ≠ 0 ↔ toH q ≠ 0 := by
  rw [qLengthSquared_normSq]
  exact not_congr Quaternion.normSq_eq_zero

theorem inverse_eq {q : Quat ℝ l} (h : toH q ≠ 0) : ∃ p, inverse q = some p ∧ toH p = (toH q)⁻¹ := by
  refine ⟨_, if_neg (toH_ne_zero.2 h), ?_⟩
  rw [toH_divScalar, toH_conj, qLengthSquared_normSq, Quaternion.inv_def]

theorem length_vec (q : Quat ℝ l) : length q.vec = Real.sqrt (q.i ^ 2 + q.j ^ 2 + q.k ^ 2) := by
  rw [length, lengthSquared_eq_sum, vec_eq', Fin.sum_univ_three]
  simp

theorem length_fin3 (v : Fin 3 → ℝ) : length v = Real.sqrt (v 0 ^ 2 + v 1 ^ 2 + v 2 ^ 2) := by
  rw [length, lengthSquared_eq_sum, Fin.sum_univ_three]
  simp

/-- The rotation matrix of a nonzero quaternion, entry by entry. -/
noncomputable def rotMat (q : Quat ℝ l) : Matrix (Fin 3) (Fin 3) ℝ :=
  let N := q.qLengthSquared
  !![(q.s ^ 2 + q.i ^ 2 - q.j ^ 2 - q.k ^ 2) / N, 2 * (q.i * q.j - q.k * q.s) / N, 2 * (q.i * q.k + q.j * q.s) / N;
     2 * (q.i * q.j + q.k * q.s) / N, (q.s ^ 2 - q.i ^ 2 + q.j ^ 2 - q.k ^ 2) / N, 2 * (q.j * q.k - q.i * q.s) / N;
     2 * (q.i * q.k - q.j * q.s) / N, 2 * (q.j * q.k + q.i * q.s) / N, (q.s ^ 2 - q.i ^ 2 - q.j ^ 2 + q.k ^ 2) / N]

theorem rotate_eq_rotMat {q : Quat ℝ l} (h : q.qLengthSquared ≠ 0) (v : Fin 3 → ℝ) : rotate q v = some ((rotMat q).mulVec v) := by
  rw [rotate, inverse, if_neg h, Option.map_some]
  congr 1
  have e : ∀ t : Fin 3, (mul (mul q (ofVec l v)) (divScalar (conj q) q.qLengthSquared)).vec t =
      ![(toH (mul (mul q (ofVec l v)) (divScalar (conj q) q.qLengthSquared))).imI,
        (toH (mul (mul q (ofVec l v)) (divScalar (conj q) q.qLengthSquared))).imJ,
        (toH (mul (mul q (ofVec l v)) (divScalar (conj q) q.qLengthSquared))).imK] t := by
    intro t; rw [vec_eq']; rfl
  funext t
  rw [e, toH_mul, toH_mul, toH_divScalar, toH_conj]
  fin_cases t <;>
  · simp [rotMat, Matrix.mulVec, dotProduct, Fin.sum_univ_three]
    field_simp
    ring

theorem rotMat_orth {q : Quat ℝ l} (h : q.qLengthSquared ≠ 0) : rotMat q * (rotMat q).transpose = 1 := by
  have hN := qLengthSquared_eq q
  ext a b
  rw [Matrix.mul_apply, Fin.sum_univ_three]
  fin_cases a <;> fin_cases b <;>
  · simp [rotMat]
    field_simp
    rw [hN]
    ring

theorem rotMat_det {q : Quat ℝ l} (h : q.qLengthSquared ≠ 0) : (rotMat q).det = 1 := by
  have hN := qLengthSquared_eq q
  rw [Matrix.det_fin_three]
  simp [rotMat]
  field_simp
  rw [hN]
  ring

end Quat

/-- The two filling loops of `QuaternionToMatrix`. -/
theorem fill_identity {r c : ℕ} [CommRing K] (m : Matrix (Fin r) (Fin c) K) (a : Fin r) (b : Fin c) :
    (forUp c 0 (fun j m => forUp r (if j.val < 3 then 3 else 0) (fun i m =>
      Matrix.of fun a b => if a = i ∧ b = j then (if j.val = i.val then (1 : K) else 0) else m a b) m) m : Matrix (Fin r) (Fin c) K) a b =
    if a.val < 3 ∧ b.val < 3 then m a b else if a.val = b.val then 1 else 0 := by
  have inner : ∀ (j : Fin c) (m0 : Matrix (Fin r) (Fin c) K) (a : Fin r) (b : Fin c),
      (forUp r (if j.val < 3 then 3 else 0) (fun i m =>
      Matrix.of fun a b => if a = i ∧ b = j then (if j.val = i.val then (1 : K) else 0) else m a b) m0 : Matrix (Fin r) (Fin c) K) a b =
      if b = j ∧ ¬ (a.val < 3 ∧ j.val < 3) then (if a.val = b.val then 1 else 0) else m0 a b := by
    intro j m0 a b
    by_cases hr : (if j.val < 3 then 3 else 0) ≤ r
    · have := forUp_inv (n := r) (lo := if j.val < 3 then 3 else 0) (s := m0) (body := fun i m =>
        (Matrix.of fun a b => if a = i ∧ b = j then (if j.val = i.val then (1 : K) else 0) else m a b : Matrix (Fin r) (Fin c) K))
        (P := fun n m => ∀ a b, m a b = if b = j ∧ ¬ (a.val < 3 ∧ j.val < 3) ∧ a.val < n then (if a.val = b.val then 1 else 0) else m0 a b)
        hr ?_ ?_
      · rw [this a b]
        simp only [a.isLt, and_true]
      · intro a b
        rw [if_neg]
        rintro ⟨-, h1, h2⟩
        split_ifs at h2 with h3 <;> omega
      · intro i m hi hm a b
        rw [Matrix.of_apply, hm]
        by_cases hab : a = i ∧ b = j
        · obtain ⟨rfl, rfl⟩ := hab
          have h3 : ¬ (a.val < 3 ∧ b.val < 3) := by split_ifs at hi with h3 <;> omega
          rw [if_pos (show a = a ∧ b = b from ⟨rfl, rfl⟩),
            if_pos (show b = b ∧ ¬ (a.val < 3 ∧ b.val < 3) ∧ a.val < a.val + 1 from ⟨rfl, h3, by omega⟩)]
          simp only [eq_comm]
        · rw [if_neg hab]
          by_cases hb : b = j
          · have ha : a.val ≠ i.val := fun e => hab ⟨Fin.ext e, hb⟩
            have : a.val < i.val + 1 ↔ a.val < i.val := by omega
            simp only [this]
          · simp only [hb, false_and, if_false]
    · rw [forUp_ge (by omega), if_neg]
      rintro ⟨-, h⟩
      split_ifs at hr with h3 <;> omega
  have := forUp_inv (n := c) (lo := 0) (s := m) (body := fun j m => (forUp r (if j.val < 3 then 3 else 0) (fun i m =>
      Matrix.of fun a b => if a = i ∧ b = j then (if j.val = i.val then (1 : K) else 0) else m a b) m : Matrix (Fin r) (Fin c) K))
    (P := fun n m' => ∀ a b, m' a b = if b.val < n ∧ ¬ (a.val < 3 ∧ b.val < 3) then (if a.val = b.val then 1 else 0) else m a b)
    (by omega) (by intro a b; rw [if_neg (by omega)]) ?_
  · rw [this a b]
    by_cases h : a.val < 3 ∧ b.val < 3
    · rw [if_neg (by tauto), if_pos h]
    · rw [if_pos ⟨b.isLt, h⟩, if_neg h]
  · intro j m' _ hm a b
    rw [inner, hm]
    by_cases hb : b = j
    · subst hb
      by_cases h : a.val < 3 ∧ b.val < 3
      · simp [h]
      · rw [if_pos (show b = b ∧ ¬ (a.val < 3 ∧ b.val < 3) from ⟨rfl, h⟩),
          if_pos (show b.val < b.val + 1 ∧ ¬ (a.val < 3 ∧ b.val < 3) from ⟨by omega, h⟩)]
    · have : b.val ≠ j.val := fun e => hb (Fin.ext e)
      have : b.val < j.val + 1 ↔ b.val < j.val := by omega
      simp only [hb, false_and, if_false, this]

/-- Element `(i, j)` of the 3×3 rotation part, counted in the precede-vector sense. -/
def quatEntry [CommRing K] {l : QLayout} (q : Quat K l) : Matrix (Fin 3) (Fin 3) K :=
  !![1 - 2 * (q.j * q.j + q.k * q.k), 2 * (q.i * q.j - q.k * q.s), 2 * (q.i * q.k + q.j * q.s);
     2 * (q.i * q.j + q.k * q.s), 1 - 2 * (q.i * q.i + q.k * q.k), 2 * (q.j * q.k - q.i * q.s);
     2 * (q.i * q.k - q.j * q.s), 2 * (q.j * q.k + q.i * q.s), 1 - 2 * (q.i * q.i + q.j * q.j)]

theorem quatToMatrix_precede [CommRing K] {l : QLayout} {r c : ℕ} (m : Matrix (Fin r) (Fin c) K) (q : Quat K l) (a : Fin r) (b : Fin c) :
    quatToMatrix .precede m q a b = if h : a.val < 3 ∧ b.val < 3 then quatEntry q ⟨a.val, h.1⟩ ⟨b.val, h.2⟩ else
      if a.val = b.val then 1 else 0 := by
  unfold quatToMatrix
  rw [fill_identity]
  split_ifs with h
  · obtain ⟨⟨a, ha⟩, ⟨b, hb⟩⟩ := a, b
    obtain ⟨h1, h2⟩ := h
    simp only at h1 h2
    interval_cases a <;> interval_cases b <;> simp [setElem, quatEntry]
  · rfl
  · rfl

theorem quatToMatrix_follow [CommRing K] {l : QLayout} {r c : ℕ} (m : Matrix (Fin r) (Fin c) K) (q : Quat K l) (a : Fin r) (b : Fin c) :
    quatToMatrix .follow m q a b = if h : a.val < 3 ∧ b.val < 3 then quatEntry q ⟨b.val, h.2⟩ ⟨a.val, h.1⟩ else
      if a.val = b.val then 1 else 0 := by
  unfold quatToMatrix
  rw [fill_identity]
  split_ifs with h
  · obtain ⟨⟨a, ha⟩, ⟨b, hb⟩⟩ := a, b
    obtain ⟨h1, h2⟩ := h
    simp only at h1 h2
    interval_cases a <;> interval_cases b <;> simp [setElem, quatEntry]
  · rfl
  · rfl

theorem quatEntry_eq_rotMat {l : QLayout} {q : Quat ℝ l} (h : q.qLengthSquared = 1) : quatEntry q = q.rotMat := by
  have hN := Quat.qLengthSquared_eq q
  rw [h] at hN
  ext a b
  fin_cases a <;> fin_cases b <;> simp [quatEntry, Quat.rotMat, h] <;> linarith

end Mathter
