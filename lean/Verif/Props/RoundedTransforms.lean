import Verif.Lemmas.RoundedTransforms
import Verif.Props.Transforms
import Verif.Props.RoundedQuaternion
import Verif.Props.RoundedLinear
import Verif.Lemmas.RoundedOne

/-!
# C119: rotation and shear builders in floating point

The matrix that is built is applied exactly (`applyT`), the image is compared with the image under the exact rotation. `e` is the error of the sine and
cosine functions, `d` that of the conversion of the angle to the element type, `u` the unit roundoff.
-/

namespace Mathter.Props
open Mathter Fl
open scoped Quaternion
variable {fl cast conv cosF sinF : ℝ → ℝ} {u e d η : ℝ}

/-- A square matrix that is close to `A` on its block and the identity elsewhere. -/
private theorem applyT_near {n : ℕ} {o : Order} {k : TKind} {m : Matrix (Fin (tRows o n k)) (Fin (tCols o n k)) ℝ} {E : ℝ}
    (A B : Matrix (Fin n) (Fin n) ℝ) (hA : ∀ i j : Fin n, ent o m i j = B i j)
    (hR : ∀ a b, inR o (tRows o n k) (tCols o n k) a b → n ≤ a ∨ n ≤ b → ent o m a b = if a = b then 1 else 0)
    (hB : ∀ i j, |B i j - A i j| ≤ E) (v : Fin n → ℝ) :
    ∃ w, applyT o k m v = some w ∧ ∀ i, |w i - A.mulVec v i| ≤ E * ∑ j, |v j| :=
  ⟨_, applyT_block B hA hR v, mulVec_err hB v⟩

/-- C119: `Rotation(angle)` in the plane. -/
theorem C119_rotation2D (hu : 0 ≤ u) (hcast : ∀ x, |cast x - x| ≤ u * |x|) (ht : IsTrig e cosF sinF) (o : Order) (k : TKind) (angle : ℝ)
    (v : Fin 2 → ℝ) :
    ∃ w, applyT o k (Fl.rotation2D cast cosF sinF o (tRows o 2 k) (tCols o 2 k) angle) v = some w ∧
      ∀ i, |w i - ![Real.cos angle * v 0 - Real.sin angle * v 1, Real.sin angle * v 0 + Real.cos angle * v 1] i| ≤ (e + u * (1 + e)) * ∑ j, |v j| := by
  obtain ⟨hC, hS⟩ := ht angle
  have key : ∀ {y x : ℝ}, |y - x| ≤ e → |x| ≤ 1 → |cast y - x| ≤ e + u * (1 + e) := by
    intro y x h1 h2
    have h3 : |y| ≤ 1 + e := by have := abs_sub_abs_le_abs_sub y x; linarith
    have h4 := hcast y
    have h5 := mul_le_mul_of_nonneg_left h3 hu
    exact (abs_sub_le _ y _).trans (by linarith)
  have hS' : |-sinF angle - -Real.sin angle| ≤ e := by rw [neg_sub_neg, abs_sub_comm]; exact hS
  obtain ⟨w, hw, hb⟩ := applyT_near (m := Fl.rotation2D cast cosF sinF o (tRows o 2 k) (tCols o 2 k) angle)
    !![Real.cos angle, -Real.sin angle; Real.sin angle, Real.cos angle] !![cast (cosF angle), cast (-sinF angle); cast (sinF angle), cast (cosF angle)]
    (by
      intro i j
      have := inR_lin (o := o) (k := k) i j
      rw [Fl.rotation2D]
      simp only [ent_elemF, this, and_true]
      fin_cases i <;> fin_cases j <;> simp)
    (by
      intro a b hR hab
      rw [Fl.rotation2D]
      simp only [ent_elemF, hR, and_true, ent_identityMat]
      rw [if_neg (by omega), if_neg (by omega), if_neg (by omega), if_neg (by omega)])
    (by
      intro i j
      have c1 := Real.abs_cos_le_one angle
      have s1 := Real.abs_sin_le_one angle
      fin_cases i <;> fin_cases j
      · exact key hC c1
      · exact key hS' ((abs_neg _).le.trans s1)
      · exact key hS s1
      · exact key hC c1) v
  refine ⟨w, hw, fun i => ?_⟩
  have := hb i
  fin_cases i
  · simpa [Matrix.mulVec, dotProduct, Fin.sum_univ_two, sub_eq_add_neg] using this
  · simpa [Matrix.mulVec, dotProduct, Fin.sum_univ_two] using this

private theorem rod_eq (n : Fin 3 → ℝ) (angle : ℝ) (v : Fin 3 → ℝ) :
    rodrigues n angle v = (rodCS (Real.cos angle) (Real.sin angle) n).mulVec v := by
  rw [rodCS_mulVec, rodrigues]

private theorem rodCS_single_err {C S c s E : ℝ} (hE : 0 ≤ E) (hC : |C - c| ≤ E) (hS : |S - s| ≤ E) (axis i j : Fin 3) :
    |rodCS C S (Pi.single axis 1) i j - rodCS c s (Pi.single axis 1) i j| ≤ E := by
  have hS' : |s - S| ≤ E := by rw [abs_sub_comm]; exact hS
  fin_cases axis <;> fin_cases i <;> fin_cases j <;> simp [rodCS, hE, hC, hS, hS', neg_add_eq_sub]

/-- The matrix of `RotationAxis(angle, axis)`. -/
private theorem single_block (conv cosF sinF : ℝ → ℝ) (o : Order) (k : TKind) (axis : Fin 3) (angle : ℝ) :
    ∃ m, Fl.rotationSingleAxis conv cosF sinF o (tRows o 3 k) (tCols o 3 k) angle (axis.val : ℤ) = some m ∧
      (∀ i j : Fin 3, ent o m i j = rodCS (cosF (conv angle)) (sinF (conv angle)) (Pi.single axis 1) i j) ∧
      ∀ a b, inR o (tRows o 3 k) (tCols o 3 k) a b → 3 ≤ a ∨ 3 ≤ b → ent o m a b = if a = b then 1 else 0 := by
  refine ⟨_, if_pos ⟨by omega, by omega⟩, ?_, ?_⟩
  · intro i j
    have := inR_lin (o := o) (k := k) i j
    fin_cases axis <;> simp only [Fin.zero_eta, Fin.mk_one, Fin.reduceFinMk, Fin.val_zero, Fin.val_one, Fin.val_two, Nat.cast_zero,
        Nat.cast_one, Nat.cast_ofNat, one_ne_zero, if_true, if_false, OfNat.ofNat_ne_zero, OfNat.ofNat_ne_one, Int.reduceEq] <;>
      simp only [ent_elemF, this, and_true, ent_identityMat] <;>
      fin_cases i <;> fin_cases j <;> simp [rodCS]
  · intro a b hR hab
    fin_cases axis <;> simp only [Fin.zero_eta, Fin.mk_one, Fin.reduceFinMk, Fin.val_zero, Fin.val_one, Fin.val_two, Nat.cast_zero,
        Nat.cast_one, Nat.cast_ofNat, one_ne_zero, if_true, if_false, OfNat.ofNat_ne_zero, OfNat.ofNat_ne_one, Int.reduceEq] <;>
      simp only [ent_elemF, hR, and_true, ent_identityMat] <;>
      rw [if_neg (by omega), if_neg (by omega), if_neg (by omega), if_neg (by omega)]

/-- C119: `RotationAxis(angle, axis)` fails exactly for axes other than 0, 1 and 2, in builds with assertions. -/
theorem C119_axis (conv cosF sinF : ℝ → ℝ) (o : Order) (k : TKind) (axis : ℤ) (angle : ℝ) :
    Fl.rotationSingleAxis conv cosF sinF o (tRows o 3 k) (tCols o 3 k) angle axis = none ↔ ∀ a : Fin 3, axis ≠ a.val := by
  constructor
  · rintro h a rfl
    obtain ⟨m, hm, -⟩ := single_block conv cosF sinF o k a angle
    rw [hm] at h
    cases h
  · intro h
    exact if_neg fun ⟨h0, h3⟩ => h ⟨axis.toNat, by omega⟩ (by simp only; omega)

/-- C119: `RotationX/Y/Z` and `RotationAxis(angle, axis)` as matrices. -/
theorem C119_single_axis (ht : IsTrig e cosF sinF) (o : Order) (k : TKind) (axis : Fin 3) (angle : ℝ) (hd : |conv angle - angle| ≤ d) (v : Fin 3 → ℝ) :
    ∃ m w, Fl.rotationSingleAxis conv cosF sinF o (tRows o 3 k) (tCols o 3 k) angle (axis.val : ℤ) = some m ∧ applyT o k m v = some w ∧
      ∀ i, |w i - rodrigues (Pi.single axis 1) angle v i| ≤ (e + d) * ∑ j, |v j| := by
  obtain ⟨hC, hS⟩ := ht.convert hd
  obtain ⟨m, hm, h1, h2⟩ := single_block conv cosF sinF o k axis angle
  obtain ⟨w, hw, hb⟩ := applyT_near (rodCS (Real.cos angle) (Real.sin angle) (Pi.single axis 1)) _ h1 h2
    (rodCS_single_err ((abs_nonneg _).trans hC) hC hS axis) v
  exact ⟨m, w, hm, hw, fun i => by rw [rod_eq]; exact hb i⟩

/-- C119: `RotationAxisAngle(axis, angle)` as a matrix, for an `axis` within `η` of the unit vector `n` (a normalised vector of floats is not exactly of
unit length): accepted, and the rotation around `n`. -/
theorem C119_axis_angle (h : Rounding fl u) {ps : ℝ → ℝ → ℝ → ℝ → ℝ} (hps : IsProdSum fl ps) {madd : ℝ → ℝ → ℝ → ℝ} (hma : IsMulAdd fl madd)
    (ht : IsTrig e cosF sinF) (len : (Fin 3 → ℝ) → ℝ) (o : Order) (k : TKind) (axis n : Fin 3 → ℝ) (angle : ℝ)
    (hlen : |len axis - length axis| ≤ 1 / 100 * length axis) (hn : length n = 1) (ha : ∀ i, |axis i - n i| ≤ η) (hd : |conv angle - angle| ≤ d)
    (hu2 : u ≤ 1 / 1000) (hed : e + d ≤ 1 / 100) (hη : η ≤ 1 / 100) (v : Fin 3 → ℝ) :
    ∃ m w, Fl.rotationAxisAngle fl ps madd conv cosF sinF len o (tRows o 3 k) (tCols o 3 k) axis angle = some m ∧ applyT o k m v = some w ∧
      ∀ i, |w i - rodrigues n angle v i| ≤ (17 * u + 4 * (e + d) + 6 * η) * ∑ j, |v j| := by
  have hu := h.u_nonneg
  obtain ⟨hC, hS⟩ := ht.convert hd
  have hη0 : 0 ≤ η := (abs_nonneg _).trans (ha 0)
  have hn2 : n 0 ^ 2 + n 1 ^ 2 + n 2 ^ 2 = 1 := by
    have hl := Quat.length_fin3 n
    rw [hn] at hl
    have h0 := Real.sq_sqrt (show 0 ≤ n 0 ^ 2 + n 1 ^ 2 + n 2 ^ 2 by positivity)
    rw [← hl] at h0
    linarith
  have hn1 : ∀ i, |n i| ≤ 1 := by
    intro i
    rw [← sq_le_one_iff_abs_le_one]
    fin_cases i <;> simp only [Fin.zero_eta, Fin.mk_one, Fin.reduceFinMk] <;> linarith [sq_nonneg (n 0), sq_nonneg (n 1), sq_nonneg (n 2)]
  have hacc : |fl (1 - len axis)| < fl 0.05 := by
    have hq := Real.sq_sqrt (show 0 ≤ axis 0 ^ 2 + axis 1 ^ 2 + axis 2 ^ 2 by positivity)
    rw [← Quat.length_fin3] at hq
    have hL0 : 0 ≤ length axis := Real.sqrt_nonneg _
    have hdev : ∀ i, |axis i ^ 2 - n i ^ 2| ≤ 201 / 10000 := by
      intro i
      rw [show axis i ^ 2 - n i ^ 2 = (axis i - n i) * ((axis i - n i) + 2 * n i) by ring, abs_mul]
      have h1 : |(axis i - n i) + 2 * n i| ≤ 201 / 100 := by
        refine (abs_add_le _ _).trans ?_
        rw [abs_mul, abs_two]
        linarith [ha i, hn1 i]
      exact (mul_le_mul ((ha i).trans hη) h1 (abs_nonneg _) (by norm_num)).trans (by norm_num)
    have d0 := abs_le.1 (hdev 0)
    have d1 := abs_le.1 (hdev 1)
    have d2 := abs_le.1 (hdev 2)
    have hL1 : length axis ≤ 103 / 100 := by
      by_contra hc
      have := mul_self_lt_mul_self (by norm_num) (not_le.1 hc)
      linarith [d0.1, d0.2, d1.1, d1.2, d2.1, d2.2]
    have hL2 : 969 / 1000 ≤ length axis := by
      by_contra hc
      have := mul_self_lt_mul_self hL0 (not_le.1 hc)
      linarith [d0.1, d0.2, d1.1, d1.2, d2.1, d2.2]
    have hll := abs_le.1 hlen
    have h3 : |1 - len axis| ≤ 41 / 1000 := by rw [abs_le]; constructor <;> linarith [hll.1, hll.2]
    have h4 := h.err (1 - len axis)
    have h5 := abs_le.1 (h.err 0.05)
    have h6 : u * |1 - len axis| ≤ 1 / 1000 * (41 / 1000) := mul_le_mul hu2 h3 (abs_nonneg _) (by norm_num)
    have h7 := abs_sub_abs_le_abs_sub (fl (1 - len axis)) (1 - len axis)
    have h8 : u * |(0.05 : ℝ)| ≤ 1 / 1000 * 0.05 := by
      rw [abs_of_pos (by norm_num : (0 : ℝ) < 0.05)]; exact mul_le_mul_of_nonneg_right hu2 (by norm_num)
    norm_num at h8
    norm_num at h5
    norm_num
    linarith [h5.1]
  have hm : Fl.rotationAxisAngle fl ps madd conv cosF sinF len o (tRows o 3 k) (tCols o 3 k) axis angle =
      some (Fl.rotationMatrixAxisAngle fl ps madd conv cosF sinF o (tRows o 3 k) (tCols o 3 k) axis angle) := by
    rw [Fl.rotationAxisAngle, if_pos hacc]
  obtain ⟨w, hw, hb⟩ := applyT_near (m := Fl.rotationMatrixAxisAngle fl ps madd conv cosF sinF o (tRows o 3 k) (tCols o 3 k) axis angle)
    (E := 17 * u + 4 * (e + d) + 6 * η) (rodCS (Real.cos angle) (Real.sin angle) n) (Matrix.of fun i j =>
      madd (fl (fl (1 - cosF (conv angle)) * axis i)) (axis j) (ps (cosF (conv angle)) (identityMat 3 3 i j) (sinF (conv angle))
        ((!![0, -axis 2, axis 1; axis 2, 0, -axis 0; -axis 1, axis 0, 0] : Matrix (Fin 3) (Fin 3) ℝ) i j)))
    (by
      intro i j
      rw [Fl.rotationMatrixAxisAngle, ent_insert_fromPrecede _ _ _ _ _ (inR_lin i j), dif_pos ⟨i.isLt, j.isLt⟩])
    (by
      intro a b hR hab
      rw [Fl.rotationMatrixAxisAngle, ent_insert_fromPrecede _ _ _ _ _ hR, dif_neg (by omega), ent_identityMat]
      simp only [hR, and_true])
    (by
      intro i j
      rw [Matrix.of_apply, identityMat_apply]
      have c1 := Real.abs_cos_le_one angle
      have s1 := Real.abs_sin_le_one angle
      have neg : ∀ t, |-axis t - -n t| ≤ η := fun t => by rw [neg_sub_neg, abs_sub_comm]; exact ha t
      have neg1 : ∀ t, |-n t| ≤ 1 := fun t => by rw [abs_neg]; exact hn1 t
      have key := fun (x x0 δ : ℝ) hx hx0 hδ => axis_angle_entry h (hu2.trans (by norm_num)) hps hma hed hη hC hS c1 s1 (ha i) (ha j) (hn1 i) (hn1 j)
        (x := x) (x0 := x0) (δ := δ) hx hx0 hδ
      have z : |(0 : ℝ) - 0| ≤ η := by simpa using hη0
      fin_cases i <;> fin_cases j
      · refine le_trans (le_of_eq ?_) (key 0 0 1 z (by norm_num) (by norm_num)); simp [rodCS]
      · refine le_trans (le_of_eq ?_) (key (-axis 2) (-n 2) 0 (neg 2) (neg1 2) (by norm_num)); simp [rodCS]
      · refine le_trans (le_of_eq ?_) (key (axis 1) (n 1) 0 (ha 1) (hn1 1) (by norm_num)); simp [rodCS]
      · refine le_trans (le_of_eq ?_) (key (axis 2) (n 2) 0 (ha 2) (hn1 2) (by norm_num)); simp [rodCS]
      · refine le_trans (le_of_eq ?_) (key 0 0 1 z (by norm_num) (by norm_num)); simp [rodCS]
      · refine le_trans (le_of_eq ?_) (key (-axis 0) (-n 0) 0 (neg 0) (neg1 0) (by norm_num)); simp [rodCS]
      · refine le_trans (le_of_eq ?_) (key (-axis 1) (-n 1) 0 (neg 1) (neg1 1) (by norm_num)); simp [rodCS]
      · refine le_trans (le_of_eq ?_) (key (axis 0) (n 0) 0 (ha 0) (hn1 0) (by norm_num)); simp [rodCS]
      · refine le_trans (le_of_eq ?_) (key 0 0 1 z (by norm_num) (by norm_num)); simp [rodCS]) v
  exact ⟨_, w, hm, hw, fun i => by rw [rod_eq]; exact hb i⟩

private theorem norm_le_twice {x : ℍ[ℝ]} {B : ℝ} (h0 : |x.re| ≤ B) (h1 : |x.imI| ≤ B) (h2 : |x.imJ| ≤ B) (h3 : |x.imK| ≤ B) : ‖x‖ ≤ 2 * B := by
  have hB := (abs_nonneg _).trans h0
  have hsq : ‖x‖ ^ 2 ≤ (2 * B) ^ 2 := by
    rw [sq ‖x‖, ← Quaternion.normSq_eq_norm_mul_self, Quaternion.normSq_def']
    have := sq_le_sq' (abs_le.1 h0).1 (abs_le.1 h0).2
    have := sq_le_sq' (abs_le.1 h1).1 (abs_le.1 h1).2
    have := sq_le_sq' (abs_le.1 h2).1 (abs_le.1 h2).2
    have := sq_le_sq' (abs_le.1 h3).1 (abs_le.1 h3).2
    linarith
  exact (le_abs_self _).trans (abs_le_of_sq_le_sq hsq (by linarith))

/-- The quaternion of the rotation by `angle` around the unit vector `n`. -/
noncomputable def rotationH (n : Fin 3 → ℝ) (angle : ℝ) : ℍ[ℝ] :=
  ⟨Real.cos (angle / 2), Real.sin (angle / 2) * n 0, Real.sin (angle / 2) * n 1, Real.sin (angle / 2) * n 2⟩

/-- C119: `RotationAxisAngle` and `RotationX/Y/Z` as quaternions, for an `axis` within `η` of the unit vector `n`. -/
theorem C119_quaternion (h : Rounding fl u) (ht : IsTrig e cosF sinF) (l : QLayout) (axis n : Fin 3 → ℝ) (angle : ℝ) (hn : ∀ i, |n i| ≤ 1)
    (ha : ∀ i, |axis i - n i| ≤ η) (hd : |conv angle - angle| ≤ d) (hhalf : fl (conv angle / 2) = conv angle / 2) (hu2 : u ≤ 1 / 100)
    (hed : e + d ≤ 1 / 100) (hη : η ≤ 1 / 100) :
    ‖Quat.toH (Fl.rotationQuatAxisAngle fl conv cosF sinF l axis angle) - rotationH n angle‖ ≤ 4 * u + 4 * (e + d) + 2 * η := by
  have hu := h.u_nonneg
  have hd0 : 0 ≤ d := (abs_nonneg _).trans hd
  have he0 := ht.nonneg
  have hη0 : 0 ≤ η := (abs_nonneg _).trans (ha 0)
  have hd2 : |(fun x => fl (conv x / 2)) angle - angle / 2| ≤ d := by
    show |fl (conv angle / 2) - angle / 2| ≤ d
    rw [hhalf, ← sub_div, abs_div, abs_two]
    linarith
  obtain ⟨h3, h4⟩ := ht (fl (conv angle / 2))
  have hC : |cosF (fl (conv angle / 2)) - Real.cos (angle / 2)| ≤ e + d :=
    (abs_sub_le _ (Real.cos (fl (conv angle / 2))) _).trans (by linarith [Real.abs_cos_sub_cos_le (fl (conv angle / 2)) (angle / 2), hd2])
  have hS : |sinF (fl (conv angle / 2)) - Real.sin (angle / 2)| ≤ e + d :=
    (abs_sub_le _ (Real.sin (fl (conv angle / 2))) _).trans (by linarith [Real.abs_sin_sub_sin_le (fl (conv angle / 2)) (angle / 2), hd2])
  have s1 := Real.abs_sin_le_one (angle / 2)
  set S := sinF (fl (conv angle / 2)) with hSd
  have hSa : |S| ≤ 1 + (e + d) := by have := abs_sub_abs_le_abs_sub S (Real.sin (angle / 2)); linarith
  have key : ∀ i, |fl (S * axis i) - Real.sin (angle / 2) * n i| ≤ 2 * u + 2 * (e + d) + η := by
    intro i
    have aa : |axis i| ≤ 101 / 100 := by have := abs_sub_abs_le_abs_sub (axis i) (n i); linarith [ha i, hn i]
    have r1 := h.err (S * axis i)
    have r2 : |S * axis i| ≤ 101 / 100 * (101 / 100) := by
      rw [abs_mul]; exact mul_le_mul (by linarith) aa (abs_nonneg _) (by norm_num)
    have r3 := mul_le_mul_of_nonneg_left r2 hu
    have r4 : |S * axis i - Real.sin (angle / 2) * n i| ≤ 101 / 100 * (e + d) + η := by
      rw [show S * axis i - Real.sin (angle / 2) * n i = (S - Real.sin (angle / 2)) * axis i + Real.sin (angle / 2) * (axis i - n i) by ring]
      refine (abs_add_le _ _).trans ?_
      rw [abs_mul, abs_mul]
      have q1 := mul_le_mul hS aa (abs_nonneg _) (by linarith)
      have q2 := mul_le_mul s1 (ha i) (abs_nonneg _) (by norm_num)
      linarith
    exact (abs_sub_le _ (S * axis i) _).trans (by linarith)
  have e0 : Quat.toH (Fl.rotationQuatAxisAngle fl conv cosF sinF l axis angle) =
      ⟨cosF (fl (conv angle / 2)), fl (S * axis 0), fl (S * axis 1), fl (S * axis 2)⟩ := by
    refine QuaternionAlgebra.ext ?_ ?_ ?_ ?_ <;> simp [Fl.rotationQuatAxisAngle, Quat.toH, hSd]
  rw [e0, show 4 * u + 4 * (e + d) + 2 * η = 2 * (2 * u + 2 * (e + d) + η) by ring]
  refine norm_le_twice ?_ ?_ ?_ ?_
  · simp only [Quaternion.re_sub, rotationH]; exact hC.trans (by linarith)
  · simp only [Quaternion.imI_sub, rotationH]; exact key 0
  · simp only [Quaternion.imJ_sub, rotationH]; exact key 1
  · simp only [Quaternion.imK_sub, rotationH]; exact key 2

private theorem fromPrecede_twice {n : ℕ} (o : Order) (m : Matrix (Fin n) (Fin n) ℝ) : fromPrecede o (fromPrecede o m) = m := by
  cases o <;> rfl

/-- C119: `RotationAxis3<a, b, c>`, `RotationEuler` and `RotationRPY` as matrices; `mul` is a product with the error bound of C82. -/
theorem C119_tri_axis (hu : 0 ≤ u) (hu2 : u ≤ 1 / 1000) (ht : IsTrig e cosF sinF)
    {mul : Matrix (Fin 3) (Fin 3) ℝ → Matrix (Fin 3) (Fin 3) ℝ → Matrix (Fin 3) (Fin 3) ℝ} (hmul : IsMatMul u 3 mul) (o : Order) (k : TKind)
    (axes : Fin 3 → Fin 3) (angles : Fin 3 → ℝ) (hd : ∀ t, |conv (angles t) - angles t| ≤ d) (hed : e + d ≤ 1 / 1000) (v : Fin 3 → ℝ) :
    ∃ m w, Fl.rotationTriAxis conv cosF sinF mul o (tRows o 3 k) (tCols o 3 k) angles (fun i => ((axes i).val : ℤ)) = some m ∧
      applyT o k m v = some w ∧ ∀ i, |w i - rodrigues (Pi.single (axes 2) 1) (angles 2)
        (rodrigues (Pi.single (axes 1) 1) (angles 1) (rodrigues (Pi.single (axes 0) 1) (angles 0) v)) i| ≤ (10 * u + 11 * (e + d)) * ∑ j, |v j| := by
  set R : Fin 3 → Matrix (Fin 3) (Fin 3) ℝ := fun t => rodCS (Real.cos (angles t)) (Real.sin (angles t)) (Pi.single (axes t) 1) with hR
  have orth : ∀ t, R t * (R t).transpose = 1 := fun t => rodCS_single_orth (Real.cos_sq_add_sin_sq _) _
  have hs : ∀ t, ∃ m, Fl.rotationSingleAxis conv cosF sinF o 3 3 (angles t) ((axes t).val : ℤ) = some m ∧ ∀ i j, |fromPrecede o m i j - R t i j| ≤ e + d := by
    intro t
    obtain ⟨hC, hS⟩ := ht.convert (hd t)
    have hE := rodCS_single_err ((abs_nonneg _).trans hC) hC hS (axes t)
    cases o
    · obtain ⟨m, hm, h1, -⟩ := single_block conv cosF sinF .follow .linear (axes t) (angles t)
      refine ⟨m, hm, fun i j => ?_⟩
      have := h1 i j
      rw [ent, dif_pos ⟨j.isLt, i.isLt⟩] at this
      rw [fromPrecede, Matrix.transpose_apply]
      exact (congrArg (fun x => |x - R t i j|) this).le.trans (hE i j)
    · obtain ⟨m, hm, h1, -⟩ := single_block conv cosF sinF .precede .linear (axes t) (angles t)
      refine ⟨m, hm, fun i j => ?_⟩
      have := h1 i j
      rw [ent, dif_pos ⟨i.isLt, j.isLt⟩] at this
      exact (congrArg (fun x => |x - R t i j|) this).le.trans (hE i j)
  obtain ⟨m0, h0, e0⟩ := hs 0
  obtain ⟨m1, h1, e1⟩ := hs 1
  obtain ⟨m2, h2, e2⟩ := hs 2
  have hprod : ∀ i j, |fromPrecede o (Fl.triProduct mul o m0 m1 m2) i j - (R 2 * R 1 * R 0) i j| ≤ 10 * u + 11 * (e + d) := by
    intro i j
    cases o
    · have k0 := prod3_near hu hu2 hmul (orth_transpose (orth 0)) (orth_transpose (orth 1)) (orth_transpose (orth 2)) hed
        (fun i j => e0 j i) (fun i j => e1 j i) (fun i j => e2 j i) j i
      rw [← Matrix.transpose_mul, ← Matrix.transpose_mul, ← Matrix.mul_assoc] at k0
      exact k0
    · exact prod3_near hu hu2 hmul (orth 2) (orth 1) (orth 0) hed e2 e1 e0 i j
  have hm : Fl.rotationTriAxis conv cosF sinF mul o (tRows o 3 k) (tCols o 3 k) angles (fun i => ((axes i).val : ℤ)) =
      some (insertAt 0 0 (fromPrecede o (fromPrecede o (Fl.triProduct mul o m0 m1 m2))) (identityMat (tRows o 3 k) (tCols o 3 k))) := by
    rw [Fl.rotationTriAxis, h0, Option.bind_some, h1, Option.bind_some, h2, Option.bind_some, fromPrecede_twice]
  obtain ⟨w, hw, hb⟩ := applyT_near (k := k)
    (m := insertAt 0 0 (fromPrecede o (fromPrecede o (Fl.triProduct mul o m0 m1 m2))) (identityMat (tRows o 3 k) (tCols o 3 k))) (R 2 * R 1 * R 0) _
    (by
      intro i j
      rw [ent_insert_fromPrecede _ _ _ _ _ (inR_lin i j), dif_pos ⟨i.isLt, j.isLt⟩])
    (by
      intro a b hR hab
      rw [ent_insert_fromPrecede _ _ _ _ _ hR, dif_neg (by omega), ent_identityMat]
      simp only [hR, and_true]) hprod v
  refine ⟨_, w, hm, hw, fun i => ?_⟩
  have := hb i
  rwa [← Matrix.mulVec_mulVec, ← Matrix.mulVec_mulVec, ← rod_eq, ← rod_eq, ← rod_eq] at this

private theorem unitAxis_fin' (a : Fin 3) : unitAxis (a.val : ℤ) = some (Pi.single a (1 : ℝ)) := by
  rw [unitAxis, if_pos ⟨by omega, by omega⟩]
  congr 1
  funext i
  by_cases e : i = a
  · subst e; simp
  · have : (i.val : ℤ) ≠ a.val := fun h => e (Fin.ext (by exact_mod_cast h))
    simp [e, this, zeroVec]

private theorem rotationH_norm (axis : Fin 3) (angle : ℝ) : ‖rotationH (Pi.single axis 1) angle‖ = 1 := by
  have h : ‖rotationH (Pi.single axis 1) angle‖ * ‖rotationH (Pi.single axis 1) angle‖ = 1 := by
    rw [← Quaternion.normSq_eq_norm_mul_self, Quaternion.normSq_def']
    have := Real.cos_sq_add_sin_sq (angle / 2)
    fin_cases axis <;> simpa [rotationH] using this
  nlinarith [norm_nonneg (rotationH (Pi.single axis 1) angle)]

/-- C119: `RotationAxis3<a, b, c>`, `RotationEuler` and `RotationRPY` as quaternions. -/
theorem C119_tri_axis_quat (h : Rounding fl u) (hu2 : u ≤ 1 / 1000) (ht : IsTrig e cosF sinF) (hcos : ∀ x, fl (cosF x) = cosF x) (l : QLayout)
    (axes : Fin 3 → Fin 3) (angles : Fin 3 → ℝ) (hd : ∀ t, |conv (angles t) - angles t| ≤ d)
    (hhalf : ∀ t, fl (conv (angles t) / 2) = conv (angles t) / 2) (hed : e + d ≤ 1 / 1000) :
    ∃ q, Fl.rotationTriAxisQ fl conv cosF sinF l angles (fun i => ((axes i).val : ℤ)) = some q ∧
      ‖Quat.toH q - rotationH (Pi.single (axes 2) 1) (angles 2) * rotationH (Pi.single (axes 1) 1) (angles 1) *
        rotationH (Pi.single (axes 0) 1) (angles 0)‖ ≤ 30 * u + 13 * (e + d) := by
  have hu := h.u_nonneg
  have he0 := ht.nonneg
  have hd0 : 0 ≤ d := (abs_nonneg _).trans (hd 0)
  set r : Fin 3 → Quat ℝ l := fun t => Fl.rotationQuatAxisAngle fl conv cosF sinF l (Pi.single (axes t) 1) (angles t) with hr
  set Q : Fin 3 → ℍ[ℝ] := fun t => rotationH (Pi.single (axes t) 1) (angles t) with hQ
  have err : ∀ t, ‖Quat.toH (r t) - Q t‖ ≤ 4 * u + 4 * (e + d) := by
    intro t
    have := C119_quaternion (η := 0) h ht l (Pi.single (axes t) 1) (Pi.single (axes t) 1) (angles t)
      (fun i => by by_cases c : i = axes t <;> simp [Pi.single_apply, c]) (fun i => by simp) (hd t) (hhalf t) (by linarith) (by linarith) (by norm_num)
    linarith
  have fixed : ∀ t s, fl ((r t).canonical s) = (r t).canonical s := by
    intro t s
    simp only [hr, Fl.rotationQuatAxisAngle, Quat.ofParts, Quat.canonical_ofCanonical]
    refine Fin.cases ?_ (fun i => ?_) s
    · exact hcos _
    · exact h.idem _
  have nQ : ∀ t, ‖Q t‖ = 1 := fun t => rotationH_norm _ _
  have nr : ∀ t, ‖Quat.toH (r t)‖ ≤ 1 + (4 * u + 4 * (e + d)) := by
    intro t
    have := norm_sub_norm_le (Quat.toH (r t)) (Q t)
    linarith [nQ t, err t]
  have hp : 2 * ((1 + u) ^ 4 - 1) ≤ 803 / 100 * u := by
    have h2 : u * u ≤ 1 / 1000 * u := mul_le_mul_of_nonneg_right hu2 hu
    have h3 : u * (u * u) ≤ 1 / 1000 * (u * u) := mul_le_mul_of_nonneg_right hu2 (mul_self_nonneg u)
    have h4 : u * (u * (u * u)) ≤ 1 / 1000 * (u * (u * u)) := mul_le_mul_of_nonneg_right hu2 (mul_nonneg hu (mul_self_nonneg u))
    nlinarith
  set ε := 4 * u + 4 * (e + d) with hε
  have hε0 : 0 ≤ ε := by positivity
  have hε1 : ε ≤ 8 / 1000 := by rw [hε]; linarith
  -- the inner product
  have b1 := C99_mul h (r 2) (r 1) (fixed 2)
  have step : ∀ (x x0 y y0 : ℍ[ℝ]) (F : ℝ), ‖x - x0‖ ≤ F → ‖y - y0‖ ≤ ε → ‖x0‖ = 1 → ‖y0‖ = 1 → ‖x * y - x0 * y0‖ ≤ F * (1 + ε) + ε := by
    intro x x0 y y0 F hx hy hx0 hy0
    have e1 : x * y - x0 * y0 = (x - x0) * y + x0 * (y - y0) := by noncomm_ring
    have hyn : ‖y‖ ≤ 1 + ε := by have := norm_sub_norm_le y y0; linarith
    rw [e1]
    refine (norm_add_le _ _).trans (add_le_add ?_ ?_)
    · rw [norm_mul]; exact mul_le_mul hx hyn (norm_nonneg _) ((norm_nonneg _).trans hx)
    · rw [norm_mul, hx0, one_mul]; exact hy
  have s1 := step _ _ _ _ _ (err 2) (err 1) (nQ 2) (nQ 1)
  have m1 : ‖Quat.toH (r 2)‖ * ‖Quat.toH (r 1)‖ ≤ 1017 / 1000 :=
    (mul_le_mul (nr 2) (nr 1) (norm_nonneg _) (by linarith)).trans (by nlinarith)
  have c1 : ‖Quat.toH (Fl.qmul fl (r 2) (r 1)) - Q 2 * Q 1‖ ≤ 163 / 10 * u + 805 / 100 * (e + d) := by
    have t1 := mul_le_mul hp m1 (by positivity) (by positivity)
    have t2 : ε * (1 + ε) ≤ 1008 / 1000 * ε := by nlinarith
    have t3 : ‖Quat.toH (Fl.qmul fl (r 2) (r 1)) - Q 2 * Q 1‖ ≤ _ :=
      (norm_sub_le_norm_sub_add_norm_sub _ (Quat.toH (r 2) * Quat.toH (r 1)) _).trans (add_le_add b1 s1)
    rw [hε] at t2 t3
    linarith
  set F := 163 / 10 * u + 805 / 100 * (e + d) with hF
  have hF0 : 0 ≤ F := by positivity
  have hF1 : F ≤ 25 / 1000 := by rw [hF]; linarith
  have n21 : ‖Q 2 * Q 1‖ = 1 := by rw [norm_mul, nQ, nQ, one_mul]
  have nP : ‖Quat.toH (Fl.qmul fl (r 2) (r 1))‖ ≤ 1 + F := by
    have := norm_sub_norm_le (Quat.toH (Fl.qmul fl (r 2) (r 1))) (Q 2 * Q 1)
    linarith
  have fP : ∀ t, fl ((Fl.qmul fl (r 2) (r 1)).canonical t) = (Fl.qmul fl (r 2) (r 1)).canonical t := by
    intro t
    rw [Fl.qmul, Quat.canonical_ofCanonical]
    exact h.idem _
  have b2 := C99_mul h (Fl.qmul fl (r 2) (r 1)) (r 0) fP
  have s2 := step _ _ _ _ _ c1 (err 0) n21 (nQ 0)
  have m2 : ‖Quat.toH (Fl.qmul fl (r 2) (r 1))‖ * ‖Quat.toH (r 0)‖ ≤ 1034 / 1000 :=
    (mul_le_mul nP (nr 0) (norm_nonneg _) (by linarith)).trans (by nlinarith)
  refine ⟨Fl.qmul fl (Fl.qmul fl (r 2) (r 1)) (r 0), ?_, ?_⟩
  · rw [Fl.rotationTriAxisQ, unitAxis_fin', Option.bind_some, unitAxis_fin', Option.bind_some, unitAxis_fin', Option.bind_some]
  · have t1 := mul_le_mul hp m2 (by positivity) (by positivity)
    have t2 : F * (1 + ε) ≤ 1008 / 1000 * F := by nlinarith
    have t3 : ‖Quat.toH (Fl.qmul fl (Fl.qmul fl (r 2) (r 1)) (r 0)) - Q 2 * Q 1 * Q 0‖ ≤ _ :=
      (norm_sub_le_norm_sub_add_norm_sub _ (Quat.toH (Fl.qmul fl (r 2) (r 1)) * Quat.toH (r 0)) _).trans (add_le_add b2 s2)
    rw [hF] at t2 t3
    rw [hε] at t3
    linarith

/-- C119: the exact quaternions `rotationH` rotate as `rodrigues` does. -/
theorem C119_rotationH (l : QLayout) (n : Fin 3 → ℝ) (angle : ℝ) : Quat.toH (rotationQuatAxisAngle l n angle) = rotationH n angle := by
  refine QuaternionAlgebra.ext ?_ ?_ ?_ ?_ <;> simp [rotationQuatAxisAngle, Quat.toH, rotationH]

private theorem sq_length (v : Fin 3 → ℝ) : length v ^ 2 = v 0 ^ 2 + v 1 ^ 2 + v 2 ^ 2 := by
  rw [Quat.length_fin3, Real.sq_sqrt (by positivity)]

private theorem length_rodrigues (n : Fin 3 → ℝ) (hn : length n = 1) (angle : ℝ) (v : Fin 3 → ℝ) : length (rodrigues n angle v) = length v := by
  obtain ⟨R, hR, ho, -⟩ := C51_proper n hn angle
  have ho' : R.transpose * R = 1 := mul_eq_one_comm.1 ho
  have e : dotProduct (R.mulVec v) (R.mulVec v) = dotProduct v v := by
    rw [Matrix.dotProduct_mulVec, ← Matrix.mulVec_transpose, Matrix.mulVec_mulVec, ho', Matrix.one_mulVec]
  rw [hR, Quat.length_fin3, Quat.length_fin3]
  rw [dotProduct, dotProduct, Fin.sum_univ_three, Fin.sum_univ_three] at e
  congr 1
  linear_combination e

private theorem length_triangle (x y : Fin 3 → ℝ) : |length x - length y| ≤ length (fun i => x i - y i) := by
  have hx := sq_length x
  have hy := sq_length y
  have hd := sq_length (fun i => x i - y i)
  have hx0 : 0 ≤ length x := Real.sqrt_nonneg _
  have hy0 : 0 ≤ length y := Real.sqrt_nonneg _
  have hd0 : 0 ≤ length (fun i => x i - y i) := Real.sqrt_nonneg _
  have cs : x 0 * y 0 + x 1 * y 1 + x 2 * y 2 ≤ length x * length y := by
    refine abs_le_of_sq_le_sq' ?_ (mul_nonneg hx0 hy0) |>.2
    rw [mul_pow, hx, hy]
    nlinarith [sq_nonneg (x 0 * y 1 - x 1 * y 0), sq_nonneg (x 0 * y 2 - x 2 * y 0), sq_nonneg (x 1 * y 2 - x 2 * y 1)]
  refine abs_le_of_sq_le_sq ?_ hd0
  rw [hd]
  nlinarith

/-- C119: lengths are preserved up to three times that error. -/
theorem C119_length (h : Rounding fl u) {ps : ℝ → ℝ → ℝ → ℝ → ℝ} (hps : IsProdSum fl ps) {madd : ℝ → ℝ → ℝ → ℝ} (hma : IsMulAdd fl madd)
    (ht : IsTrig e cosF sinF) (len : (Fin 3 → ℝ) → ℝ) (o : Order) (k : TKind) (axis n : Fin 3 → ℝ) (angle : ℝ)
    (hlen : |len axis - length axis| ≤ 1 / 100 * length axis) (hn : length n = 1) (ha : ∀ i, |axis i - n i| ≤ η) (hd : |conv angle - angle| ≤ d)
    (hu2 : u ≤ 1 / 1000) (hed : e + d ≤ 1 / 100) (hη : η ≤ 1 / 100) (v : Fin 3 → ℝ) :
    ∃ m w, Fl.rotationAxisAngle fl ps madd conv cosF sinF len o (tRows o 3 k) (tCols o 3 k) axis angle = some m ∧ applyT o k m v = some w ∧
      |length w - length v| ≤ 3 * (17 * u + 4 * (e + d) + 6 * η) * length v := by
  obtain ⟨m, w, hm, hw, hb⟩ := C119_axis_angle h hps hma ht len o k axis n angle hlen hn ha hd hu2 hed hη v
  refine ⟨m, w, hm, hw, ?_⟩
  have hu := h.u_nonneg
  have he0 := ht.nonneg
  have hd0 : 0 ≤ d := (abs_nonneg _).trans hd
  have hη0 : 0 ≤ η := (abs_nonneg _).trans (ha 0)
  have hl0 : 0 ≤ length v := Real.sqrt_nonneg _
  generalize hE : 17 * u + 4 * (e + d) + 6 * η = E at hb ⊢
  have hE0 : 0 ≤ E := by rw [← hE]; positivity
  rw [← length_rodrigues n hn angle v]
  refine (length_triangle _ _).trans ?_
  rw [length_rodrigues n hn angle v]
  refine (abs_le_of_sq_le_sq' ?_ (by positivity)).2
  rw [sq_length, mul_pow, sq_length v]
  have hs : (∑ j, |v j|) ^ 2 ≤ 3 * (v 0 ^ 2 + v 1 ^ 2 + v 2 ^ 2) := by
    rw [Fin.sum_univ_three, ← sq_abs (v 0), ← sq_abs (v 1), ← sq_abs (v 2)]
    nlinarith [sq_nonneg (|v 0| - |v 1|), sq_nonneg (|v 0| - |v 2|), sq_nonneg (|v 1| - |v 2|)]
  have hsq : ∀ i, (w i - rodrigues n angle v i) ^ 2 ≤ E ^ 2 * (3 * (v 0 ^ 2 + v 1 ^ 2 + v 2 ^ 2)) := by
    intro i
    have h1 := sq_le_sq' (abs_le.1 (hb i)).1 (abs_le.1 (hb i)).2
    rw [mul_pow] at h1
    exact h1.trans (mul_le_mul_of_nonneg_left hs (sq_nonneg _))
  have a0 := hsq 0
  have a1 := hsq 1
  have a2 := hsq 2
  linarith

/-- C119: the general shear, in any dimension: errors are relative to the contributions to the coordinate. -/
theorem C119_shear (h : Rounding fl u) {madd : ℝ → ℝ → ℝ → ℝ} (hma : IsMulAdd fl madd) {n : ℕ} (o : Order) (k : TKind) (slope : ℝ)
    (dir mod v : Fin n → ℝ) :
    ∃ w, applyT o k (Fl.shearGeneral fl madd o (tRows o n k) (tCols o n k) slope dir mod) v = some w ∧
      ∀ i, |w i - (v i + slope * (∑ j, mod j * v j) * dir i)| ≤ ((1 + u) ^ 3 - 1) * (|v i| + |slope * dir i| * ∑ j, |mod j * v j|) := by
  refine ⟨_, applyT_block (Matrix.of fun i j => madd (fl (slope * dir i)) (mod j) (identityMat n n i j)) ?_ ?_ v, fun i => ?_⟩
  · intro i j
    rw [Fl.shearGeneral, ent_insert_fromPrecede _ _ _ _ _ (inR_lin i j), dif_pos ⟨i.isLt, j.isLt⟩]
  · intro a b hR hab
    rw [Fl.shearGeneral, ent_insert_fromPrecede _ _ _ _ _ hR, dif_neg (by omega), ent_identityMat]
    simp only [hR, and_true]
  · have hv : v i + slope * (∑ j, mod j * v j) * dir i = ∑ j, (slope * dir i * mod j + identityMat n n i j) * v j := by
      simp only [add_mul, Finset.sum_add_distrib]
      rw [add_comm]
      congr 1
      · rw [mul_right_comm, Finset.mul_sum]
        exact Finset.sum_congr rfl fun j _ => by ring
      · simp [identityMat_apply, Fin.val_inj]
    have hM : |v i| + |slope * dir i| * ∑ j, |mod j * v j| = ∑ j, (|slope * dir i| * |mod j| + |identityMat (K := ℝ) n n i j|) * |v j| := by
      simp only [add_mul, Finset.sum_add_distrib]
      rw [add_comm]
      congr 1
      · rw [Finset.mul_sum]
        exact Finset.sum_congr rfl fun j _ => by rw [abs_mul (mod j)]; ring
      · rw [Finset.sum_eq_single i]
        · simp [identityMat_apply]
        · intro j _ hj
          rw [identityMat_apply, if_neg (fun hh => hj (Fin.ext hh.symm)), abs_zero, zero_mul]
        · intro hi; exact absurd (Finset.mem_univ i) hi
    rw [hv, hM, Matrix.mulVec, dotProduct, ← Finset.sum_sub_distrib, Finset.mul_sum]
    refine (Finset.abs_sum_le_sum_abs _ _).trans (Finset.sum_le_sum fun j _ => ?_)
    rw [← sub_mul, abs_mul, ← mul_assoc]
    refine mul_le_mul_of_nonneg_right ?_ (abs_nonneg _)
    exact ((Near.exact (u := u) (slope * dir i)).round h |>.madd h hma (m := 2) (by norm_num) (Near.exact (mod j)) ((Near.exact _).mono h (by norm_num))).err

/-! ## The hypotheses can be met -/

/-- C119: the product of the code, in any layout and configuration, is a product as `C119_tri_axis` needs it. -/
theorem C119_product {c : Cfg} {n : ℕ} [NeZero n] {o : Order} {L : Layout} {pk : Bool} (h : Rounding fl u) {op : ℝ → ℝ → ℝ → ℝ} (hop : IsMulAdd fl op)
    (cv : Bool) (tb : RTree (batchSize n false)) (ts : RTree (n + 1)) (htb : tb.Valid) (hts : ts.Valid) (m0 : Mat c ℝ n n o L (pk && pk))
    (m1 : Mat c ℝ n n o L pk) :
    IsMatMul u n fun A B => Matrix.of fun i j => (Fl.matMul fl op cv tb ts m0 (Mat.fillLoop A m1) (Mat.fillLoop B m1)).get i j := by
  intro A B i j
  have := C82_mul h hop cv tb ts htb hts m0 (Mat.fillLoop A m1) (Mat.fillLoop B m1) i j
  have e : ∀ (M : Matrix (Fin n) (Fin n) ℝ) i j, (Mat.fillLoop M m1).get i j = M i j := fun M i j => Mat.get_fillLoop _ _ _ _
  simp only [e] at this
  exact this

private theorem unit24 : (2 : ℝ) ^ (-((24 : ℕ) : ℤ)) ≤ 1 / 1000 := by norm_num

private theorem away24 : Rounding (flAway 24) ((2 : ℝ) ^ (-((24 : ℕ) : ℤ))) := (flAway_roundsToNearest (by norm_num)).rounding (by norm_num)

private theorem trig24 : IsTrig ((2 : ℝ) ^ (-((24 : ℕ) : ℤ))) (fun x => flAway 24 (Real.cos x)) (fun x => flAway 24 (Real.sin x)) := by
  intro x
  have h0 := away24.u_nonneg
  exact ⟨(away24.err _).trans (mul_le_of_le_one_right h0 (Real.abs_cos_le_one x)), (away24.err _).trans (mul_le_of_le_one_right h0 (Real.abs_sin_le_one x))⟩

/-- Round to nearest with 24 bits, correctly rounded sine and cosine, and an axis whose elements are rounded. -/
example (v : Fin 3 → ℝ) : ∃ m w, Fl.rotationAxisAngle (flAway 24) (fun a b c d => flAway 24 (flAway 24 (a * b) + flAway 24 (c * d)))
      (fun a b c => flAway 24 (a * b + c)) id (fun x => flAway 24 (Real.cos x)) (fun x => flAway 24 (Real.sin x)) length .follow (tRows .follow 3 .affine)
      (tCols .follow 3 .affine) (fun i => flAway 24 ((![3 / 5, 0, 4 / 5] : Fin 3 → ℝ) i)) 2 = some m ∧ applyT .follow .affine m v = some w ∧
    |length w - length v| ≤ 3 * (17 * (2 : ℝ) ^ (-((24 : ℕ) : ℤ)) + 4 * ((2 : ℝ) ^ (-((24 : ℕ) : ℤ)) + 0) + 6 * (2 : ℝ) ^ (-((24 : ℕ) : ℤ))) * length v := by
  have hn : ∀ i, |(![3 / 5, 0, 4 / 5] : Fin 3 → ℝ) i| ≤ 1 := by intro i; fin_cases i <;> norm_num
  refine C119_length (d := 0) away24 (fun _ _ _ _ => Or.inl rfl) (fun _ _ _ => Or.inr rfl) trig24 length .follow .affine _ ![3 / 5, 0, 4 / 5] 2 ?_ ?_ ?_ ?_
    unit24 ?_ ?_ v
  · rw [sub_self, abs_zero]; exact mul_nonneg (by norm_num) (Real.sqrt_nonneg _)
  · rw [Quat.length_fin3, Real.sqrt_eq_one]; simp; norm_num
  · intro i; exact (away24.err _).trans (mul_le_of_le_one_right away24.u_nonneg (hn i))
  · simp
  · norm_num
  · norm_num

/-- Euler angles 1, 2 and 3. -/
example : ∃ q, Fl.rotationTriAxisQ (flAway 24) id (fun x => flAway 24 (Real.cos x)) (fun x => flAway 24 (Real.sin x)) .vectorFirst ![1, 2, 3]
      (fun i => ((![2, 0, 2] : Fin 3 → Fin 3) i).val) = some q ∧
    ‖Quat.toH q - rotationH (Pi.single 2 1) 3 * rotationH (Pi.single 0 1) 2 * rotationH (Pi.single 2 1) 1‖ ≤
      30 * (2 : ℝ) ^ (-((24 : ℕ) : ℤ)) + 13 * ((2 : ℝ) ^ (-((24 : ℕ) : ℤ)) + 0) := by
  refine C119_tri_axis_quat (conv := id) (d := 0) away24 unit24 trig24 (fun x => away24.idem _) .vectorFirst ![2, 0, 2] ![1, 2, 3] (fun t => by simp) ?_
    (by norm_num)
  have hf := flAway_roundsToNearest (p := 24) (by norm_num)
  intro t
  refine hf.fixed ?_
  fin_cases t
  · exact ⟨1, -1, by norm_num, by norm_num⟩
  · exact ⟨1, 0, by norm_num, by norm_num⟩
  · exact ⟨3, -1, by norm_num, by norm_num⟩

end Mathter.Props
