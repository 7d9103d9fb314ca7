import Verif.Model.BuilderShapes
import Verif.Props.Transforms

/-!
# C105: the shapes the transform builders convert to
-/

namespace Mathter.Props
open Mathter
variable {K : Type*}

/-- The dimension of the space the builder's transform acts on. -/
def spaceDim : Builder → ℕ
  | .scale n | .translation n | .orthographic n | .perspective n | .lookAt n | .shearGeneral n => n
  | .rotation2D => 2
  | .rotationAxis | .rotationAxis3 | .rotationAxisAngle => 3

/-- The kinds of matrices that can represent the transform: a translation needs an extra input, a perspective division an extra output too. -/
def Represents : Builder → TKind → Prop
  | .scale _, _ | .shearGeneral _, _ | .rotation2D, _ | .rotationAxis, _ | .rotationAxis3, _ | .rotationAxisAngle, _ => True
  | .translation _, k | .orthographic _, k | .lookAt _, k => k ≠ .linear
  | .perspective _, k => k = .homogeneous

/-- The shapes of the matrices that can represent the transform. -/
def Fits (b : Builder) (o : Order) (r c : ℕ) : Prop := ∃ k, Represents b k ∧ r = tRows o (spaceDim b) k ∧ c = tCols o (spaceDim b) k

private theorem ex_kind {P : TKind → Prop} : (∃ k, P k) ↔ P .homogeneous ∨ P .linear ∨ P .affine :=
  ⟨fun ⟨k, h⟩ => by cases k; exacts [Or.inr (Or.inl h), Or.inr (Or.inr h), Or.inl h], fun h => by rcases h with h | h | h <;> exact ⟨_, h⟩⟩

/-- C105: a builder converts to exactly the shapes that can represent its transform. The exception is the general shear (`C105_shear_violated`). -/
theorem C105_shapes_partial (b : Builder) (hb : ∀ n, b ≠ .shearGeneral n) (o : Order) (r c : ℕ) : (r, c) ∈ b.shapes o ↔ Fits b o r c := by
  unfold Fits
  rw [ex_kind]
  cases b <;> cases o <;> simp_all [Builder.shapes, Represents, spaceDim, narrowShape, tRows, tCols]

/-- C105: no two conversion operators offer the same shape, so that no conversion is ambiguous. -/
theorem C105_unambiguous (b : Builder) (o : Order) : (b.shapes o).Nodup := by
  cases b <;> cases o <;> simp [Builder.shapes, narrowShape]

/-- C105: the general shear offers the right shapes in three dimensions. -/
theorem C105_shear_three (o : Order) (r c : ℕ) : (r, c) ∈ (Builder.shearGeneral 3).shapes o ↔ Fits (.shearGeneral 3) o r c := by
  unfold Fits
  rw [ex_kind]
  cases o <;> simp [Builder.shapes, Represents, spaceDim, narrowShape, tRows, tCols]

/-- C105 is violated by the general shear in all other dimensions: either a shape is missing or it is offered although it is not suitable. -/
theorem C105_shear_violated (n : ℕ) (hn : n ≠ 3) (o : Order) : ¬ ∀ r c, (r, c) ∈ (Builder.shearGeneral n).shapes o ↔ Fits (.shearGeneral n) o r c := by
  intro h
  have hw := h n n
  have h3 := h (n + 1) (n + 1)
  unfold Fits at hw h3
  rw [ex_kind] at hw h3
  cases o <;> simp [Builder.shapes, Represents, spaceDim, narrowShape, tRows, tCols] at hw h3 <;> omega

/-- C105: a 2D shear cannot be converted to a 2×2 matrix. -/
theorem C105_shear_2x2_violated (o : Order) : Fits (.shearGeneral 2) o 2 2 ∧ (2, 2) ∉ (Builder.shearGeneral 2).shapes o := by
  refine ⟨⟨.linear, trivial, ?_⟩, ?_⟩
  · cases o <;> exact ⟨rfl, rfl⟩
  · cases o <;> simp [Builder.shapes, narrowShape]

/-- C105: where the shape is large enough, the general shear acts on the leading coordinates and leaves the others as they are. -/
theorem C105_shear_leading [Field K] {n m : ℕ} (hnm : n ≤ m) (o : Order) (k : TKind) (slope : K) (dir mod : Fin n → K) (v : Fin m → K) :
    (shearConvert o (tRows o m k) (tCols o m k) slope dir mod).bind (fun M => applyT o k M v) =
      some fun i => if h : i.val < n then v i + slope * (∑ j, v (Fin.castLE hnm j) * mod j) * dir ⟨i.val, h⟩ else v i := by
  have hsz : n + 0 ≤ tRows o m k ∧ n + 0 ≤ tCols o m k := by cases o <;> cases k <;> constructor <;> simp [tRows, tCols, TKind.outs, TKind.ins] <;> omega
  rw [shearConvert, if_pos hsz, Option.bind_some]
  rw [applyT_block (1 + Matrix.of fun i j => if h : i.val < n ∧ j.val < n then slope * dir ⟨i.val, h.1⟩ * mod ⟨j.val, h.2⟩ else 0)]
  · congr 1
    funext i
    rw [Matrix.add_mulVec, Matrix.one_mulVec, Pi.add_apply, Matrix.mulVec, dotProduct]
    by_cases hi : i.val < n
    · rw [dif_pos hi, Finset.mul_sum, Finset.sum_mul]
      congr 1
      symm
      refine Finset.sum_of_injOn (Fin.castLE hnm) (fun a _ b _ hab => Fin.castLE_injective hnm hab) (fun _ _ => Finset.mem_univ _) (fun j _ hj => ?_) fun j _ => ?_
      · rw [Matrix.of_apply, dif_neg, zero_mul]
        rintro ⟨_, hjn⟩
        exact hj ⟨⟨j.val, hjn⟩, by simp, Fin.ext rfl⟩
      · rw [Matrix.of_apply, dif_pos ⟨hi, j.isLt⟩]
        show slope * (v (Fin.castLE hnm j) * mod j) * dir ⟨i.val, hi⟩ = slope * dir ⟨i.val, hi⟩ * mod j * v (Fin.castLE hnm j)
        ring
    · rw [dif_neg hi, Finset.sum_eq_zero, add_zero]
      intro j _
      rw [Matrix.of_apply, dif_neg (fun h => hi h.1), zero_mul]
  · intro i j
    rw [shearGeneral, ent_insert_fromPrecede _ _ _ _ _ (inR_lin i j)]
    by_cases hij : i.val < n ∧ j.val < n
    · rw [dif_pos hij, identityMat_eq_one, Matrix.add_apply, Matrix.add_apply, Matrix.mul_apply, Fin.sum_univ_one]
      simp [Matrix.one_apply, Fin.ext_iff, hij.1, hij.2]
    · rw [dif_neg hij, ent_identityMat, Matrix.add_apply, Matrix.of_apply, dif_neg hij, add_zero, Matrix.one_apply]
      simp only [inR_lin, and_true, Fin.ext_iff]
  · intro a b hR hab
    rw [shearGeneral, ent_insert_fromPrecede _ _ _ _ _ hR, dif_neg (by omega), ent_identityMat]
    simp only [hR, and_true]

/-- C105: for more than four coordinates every conversion that is offered fails the assertions of `Insert`; for four all but the 4×4 one. -/
theorem C105_shear_large_violated [CommRing K] {n : ℕ} (hn : 4 ≤ n) (o : Order) (r c : ℕ) (h : (r, c) ∈ (Builder.shearGeneral n).shapes o) (slope : K)
    (dir mod : Fin n → K) : shearConvert o r c slope dir mod = none ↔ ¬ (n = 4 ∧ r = 4 ∧ c = 4) := by
  unfold shearConvert
  have : (r = 4 ∧ c = 4) ∨ (r = 3 ∧ c = 3) ∨ (r = 3 ∧ c = 4) ∨ (r = 4 ∧ c = 3) := by
    cases o <;> simp [Builder.shapes, narrowShape] at h <;> omega
  split_ifs with hs
  · simp only [false_iff, not_not]; omega
  · simp only [true_iff]; omega

/-- A 2D shear applied as a 4×4 matrix to a position in space: the third coordinate is left alone. -/
example (v : Fin 3 → ℚ) : (shearConvert (n := 2) .precede 4 4 2 ![1, 0] ![0, 1]).bind (fun M => applyT .precede .homogeneous M v) = some ![v 0 + 2 * v 1, v 1, v 2] := by
  have := C105_shear_leading (m := 3) (n := 2) (by norm_num) .precede .homogeneous (2 : ℚ) ![1, 0] ![0, 1] v
  refine this.trans ?_
  congr 1
  funext i
  fin_cases i <;> simp [Fin.sum_univ_succ]

/-- The scale of three coordinates as 3×4 matrix that precedes the vector. -/
example : (3, 4) ∈ (Builder.scale 3).shapes .precede ∧ (4, 3) ∉ (Builder.scale 3).shapes .precede := by decide

end Mathter.Props
