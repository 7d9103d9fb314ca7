import Verif.Model.QuaternionAssign
import Verif.Lemmas.Quaternion
import Mathlib.Tactic.FinCases

/-!
# C98: compound assignments, `!=`, parts and literals of quaternions

The reference is the quaternion algebra of Mathlib over the common type.
-/

namespace Mathter.Props
open Mathter Quat
universe u v w
variable {A : Type u} {B : Type v} {R : Type w} {l l1 l2 : QLayout}

/-- The members of `q`, converted, as a quaternion of the algebra. -/
def lifted [CommRing R] (up : A → R) (q : Quat A l) : Quaternion R := ⟨up q.s, up q.i, up q.j, up q.k⟩

/-- `q` holds the parts of `h`, converted. -/
def Holds [CommRing R] (down : R → A) (q : Quat A l) (h : Quaternion R) : Prop :=
  q.s = down h.re ∧ q.i = down h.imI ∧ q.j = down h.imJ ∧ q.k = down h.imK

private theorem toH_mapElements [CommRing R] (up : A → R) (q : Quat A l) : toH (mapElements up q) = lifted up q := rfl

private theorem holds_assign [Zero A] [CommRing R] (down : R → A) (q : Quat R l1) : Holds down (assignFrom down l q) (toH q) := by
  unfold Holds assignFrom
  simp only [s_eq, i_eq, j_eq, k_eq, canonical_ofCanonical]
  exact ⟨rfl, rfl, rfl, rfl⟩

section
variable [Zero A] [CommRing R] (up1 : A → R) (up2 : B → R) (down : R → A)

/-- C98: `p += q`, for all layouts and scalar types of the operands. -/
theorem C98_addAssign (p : Quat A l1) (q : Quat B l2) : Holds down (addAssign up1 up2 down p q) (lifted up1 p + lifted up2 q) := by
  have := holds_assign (l := l1) down (add (mapElements up1 p) (mapElements up2 q))
  rwa [toH_add] at this

/-- C98: `p -= q`. -/
theorem C98_subAssign (p : Quat A l1) (q : Quat B l2) : Holds down (subAssign up1 up2 down p q) (lifted up1 p - lifted up2 q) := by
  have := holds_assign (l := l1) down (sub (mapElements up1 p) (mapElements up2 q))
  rwa [toH_sub] at this

/-- C98: `p *= q` multiplies `q` from the right, with the old elements of `p` throughout. -/
theorem C98_mulAssign (p : Quat A l1) (q : Quat B l2) : Holds down (mulAssign up1 up2 down p q) (lifted up1 p * lifted up2 q) := by
  have := holds_assign (l := l1) down (mul (mapElements up1 p) (mapElements up2 q))
  rwa [toH_mul] at this

/-- C98: `p += x`, `p -= x`, `p *= x` with a scalar: sums change the scalar part only, the product all elements. -/
theorem C98_scalarAssign (p : Quat A l) (x : B) :
    Holds down (addAssignScalar up1 up2 down p x) (lifted up1 p + ((up2 x : R) : Quaternion R)) ∧ Holds down (subAssignScalar up1 up2 down p x) (lifted up1 p - ((up2 x : R) : Quaternion R)) ∧
      Holds down (mulAssignScalar up1 up2 down p x) (lifted up1 p * ((up2 x : R) : Quaternion R)) := by
  have e : toH (mk4 l (up2 x) 0 0 0) = ((up2 x : R) : Quaternion R) := toH_mk4 _ _ _ _
  refine ⟨?_, ?_, ?_⟩
  · have := holds_assign (l := l) down (addScalar (mapElements up1 p) (up2 x))
    rwa [addScalar, toH_add, e] at this
  · have := holds_assign (l := l) down (subScalar (mapElements up1 p) (up2 x))
    rwa [subScalar, toH_sub, e] at this
  · have := holds_assign (l := l) down (mulScalar (mapElements up1 p) (up2 x))
    have e' : toH (mulScalar (mapElements up1 p) (up2 x)) = lifted up1 p * ((up2 x : R) : Quaternion R) := by
      rw [Quaternion.mul_coe_eq_smul]
      apply Quaternion.ext <;> simp only [Quaternion.re_smul, Quaternion.imI_smul, Quaternion.imJ_smul, Quaternion.imK_smul, smul_eq_mul] <;> exact mul_comm _ _
    rwa [e'] at this

end

/-- C98: `p /= x` is defined for every nonzero divisor, and multiplying again gives back the elements. -/
theorem C98_divAssign [Zero A] [Field R] [DecidableEq R] (up1 : A → R) (up2 : B → R) (down : R → A) (p : Quat A l) (x : B) :
    (divAssignScalar up1 up2 down p x = none ↔ up2 x = 0) ∧
      ∀ r, divAssignScalar up1 up2 down p x = some r → ∃ h : Quaternion R, Holds down r h ∧ h * ((up2 x : R) : Quaternion R) = lifted up1 p := by
  unfold divAssignScalar
  split
  · rename_i h; simp [h]
  · rename_i h
    refine ⟨by simp [h], fun r hr => ?_⟩
    obtain rfl := Option.some.inj hr
    refine ⟨_, holds_assign down _, ?_⟩
    rw [toH_divScalar, toH_mapElements, ← Quaternion.coe_mul_eq_smul, mul_assoc, Quaternion.coe_mul_eq_smul, Quaternion.mul_coe_eq_smul, smul_smul,
      inv_mul_cancel₀ h, one_smul]

/-- C98: `!=` compares the members, whatever the layouts. -/
theorem C98_ne [DecidableEq A] (p : Quat A l1) (q : Quat A l2) : ne p q = true ↔ p.s ≠ q.s ∨ p.i ≠ q.i ∨ p.j ≠ q.j ∨ p.k ≠ q.k := by
  unfold ne Quat.eq
  rw [Bool.not_eq_true', decide_eq_false_iff_not, ← not_iff_not]
  simp only [not_not, not_or, ne_eq, s_eq, i_eq, j_eq, k_eq]
  constructor
  · intro h; rw [h]; exact ⟨rfl, rfl, rfl, rfl⟩
  · rintro ⟨h0, h1, h2, h3⟩
    funext t; fin_cases t
    exacts [h0, h1, h2, h3]

/-- C98: a quaternion is put together again from its scalar and vector parts, in any layout. -/
theorem C98_parts [Zero A] (q : Quat A l) : ofParts l q.scalarPart q.vectorPart = q := by
  apply ext_canonical
  rw [canonical_ofParts]
  funext t; fin_cases t <;> rfl

/-- C98: conversion to a vector and back is the identity, and the place of the scalar in the vector is the first or last as the layout says. -/
theorem C98_vector4 (q : Quat A l) : ofVector4 id l (q.toVector4 id) = q ∧
    q.toVector4 id = (match l with | .scalarFirst => ![q.s, q.i, q.j, q.k] | .vectorFirst => ![q.i, q.j, q.k, q.s]) := by
  refine ⟨rfl, ?_⟩
  cases l <;> funext t <;> fin_cases t <;> rfl

/-- C98: `w + x_i + y_j + z_k` is the quaternion of these parts. -/
theorem C98_literals [CommRing A] (conv : B → A) (w : A) (x y z : B) :
    add (add (scalarAdd id w (litI conv l x)) (litJ conv l y)) (litK conv l z) = mk4 l w (conv x) (conv y) (conv z) := by
  apply toH_inj
  simp only [toH_add, scalarAdd]
  apply Quaternion.ext <;> simp [litI, litJ, litK, s_eq, i_eq, j_eq, k_eq]

/-- C98: the literals multiply like the units: `x_i * y_j = xy_k` and so on cyclically, with the opposite sign in the other order, and `x_i * y_i = -xy`. -/
theorem C98_units [CommRing A] (x y : A) :
    (mul (litI id l x) (litJ id l y) = litK id l (x * y) ∧ mul (litJ id l x) (litK id l y) = litI id l (x * y) ∧
      mul (litK id l x) (litI id l y) = litJ id l (x * y)) ∧
    (mul (litJ id l y) (litI id l x) = litK id l (-(x * y)) ∧ mul (litK id l y) (litJ id l x) = litI id l (-(x * y)) ∧
      mul (litI id l y) (litK id l x) = litJ id l (-(x * y))) ∧
    (mul (litI id l x) (litI id l y) = mk4 l (-(x * y)) 0 0 0 ∧ mul (litJ id l x) (litJ id l y) = mk4 l (-(x * y)) 0 0 0 ∧
      mul (litK id l x) (litK id l y) = mk4 l (-(x * y)) 0 0 0) := by
  refine ⟨⟨?_, ?_, ?_⟩, ⟨?_, ?_, ?_⟩, ?_, ?_, ?_⟩ <;> apply toH_inj <;> rw [toH_mul] <;> apply Quaternion.ext <;>
    simp [litI, litJ, litK, s_eq, i_eq, j_eq, k_eq, mul_comm]

/-- Operands of different scalar types and layouts: an integer quaternion, multiplied by a rational one and truncated. -/
example : ∃ (p : Quat ℤ .scalarFirst) (q : Quat ℚ .vectorFirst), mulAssign (fun x : ℤ => (x : ℚ)) id (fun x : ℚ => x.floor) p q ≠ p :=
  ⟨mk4 _ 1 2 3 4, mk4 _ 2 0 0 0, fun h => by
    have h1 := (C98_mulAssign (fun x : ℤ => (x : ℚ)) id (fun x : ℚ => x.floor) (mk4 .scalarFirst 1 2 3 4) (mk4 .vectorFirst (2 : ℚ) 0 0 0)).1
    rw [h] at h1
    rw [Quaternion.re_mul] at h1
    simp [lifted, s_eq, i_eq, j_eq, k_eq] at h1
    exact absurd h1 (by decide)⟩

example : ne (mk4 .scalarFirst 1 2 3 4 : Quat ℤ _) (mk4 .vectorFirst 1 2 3 4) = false ∧ ne (mk4 .scalarFirst 1 2 3 4 : Quat ℤ _) (mk4 .vectorFirst 1 2 4 3) = true := by
  decide

end Mathter.Props
