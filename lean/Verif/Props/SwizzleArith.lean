import Mathlib.Data.Fin.VecNotation
import Verif.Model.SwizzleArith
import Verif.Props.VectorArith
import Verif.Props.Swizzle

/-!
# Properties C72, C73: swizzles in arithmetic, compound assignment
-/

namespace Mathter.Props
open Mathter
universe u v w
variable {A : Type u} {B : Type v} {C : Type w} {K : Type u} {c cA cB cC : Cfg} {dim dim2 k : ℕ} {p p2 : Bool}

/-! ## C72 -/

/-- C72: an operator with a swizzle on the right acts on the elements that the letters name. -/
theorem C72_vec_swizzle [Zero B] [Zero C] (conv : Bool) (f : A → B → C) (junk junk' : ℕ → B) (lhs : Vec cA A k p) (src : Vec cB B dim p2)
    (idx : Fin k → Fin dim) (t : Fin k) :
    (Swz.vecOpSwz conv f junk junk' lhs src idx : Vec cC C k (p && p2)).get t = f (lhs.get t) (src.get (idx t)) := by
  simp [Swz.vecOpSwz, C05_read]

theorem C72_swizzle_vec [Zero A] [Zero C] (conv : Bool) (f : A → B → C) (junk junk' : ℕ → A) (src : Vec cA A dim p) (idx : Fin k → Fin dim)
    (rhs : Vec cB B k p2) (t : Fin k) :
    (Swz.swzOpVec conv f junk junk' src idx rhs : Vec cC C k (p && p2)).get t = f (src.get (idx t)) (rhs.get t) := by
  simp [Swz.swzOpVec, C05_read]

theorem C72_swizzle_swizzle [Zero A] [Zero B] [Zero C] (conv : Bool) (f : A → B → C) (junk junk' : ℕ → A) (junk2 junk2' : ℕ → B) (src : Vec cA A dim p)
    (idx : Fin k → Fin dim) (src2 : Vec cB B dim2 p2) (idx2 : Fin k → Fin dim2) (t : Fin k) :
    (Swz.swzOpSwz conv f junk junk' junk2 junk2' src idx src2 idx2 : Vec cC C k (p && p2)).get t = f (src.get (idx t)) (src2.get (idx2 t)) := by
  simp [Swz.swzOpSwz, C05_read]

theorem C72_swizzle_scalar [Zero A] [Zero B] [Zero C] (conv : Bool) (f : A → B → C) (junk junk' : ℕ → A) (src : Vec cA A dim p) (idx : Fin k → Fin dim)
    (x : B) (t : Fin k) : (Swz.swzOpScalar (cB := cB) conv f junk junk' src idx x : Vec cC C k (p && p)).get t = f (src.get (idx t)) x := by
  simp [Swz.swzOpScalar, C05_read]

theorem C72_scalar_swizzle [Zero A] [Zero B] [Zero C] (conv : Bool) (f : A → B → C) (junk junk' : ℕ → B) (x : A) (src : Vec cB B dim p)
    (idx : Fin k → Fin dim) (t : Fin k) :
    (Swz.scalarOpSwz (cA := cA) conv f junk junk' x src idx : Vec cC C k (p && p)).get t = f x (src.get (idx t)) := by
  simp [Swz.scalarOpSwz, C05_read]

theorem C72_neg [Ring K] (conv : Bool) (junk junk' : ℕ → K) (src : Vec c K dim p) (idx : Fin k → Fin dim) (t : Fin k) :
    (Swz.negSwz conv junk junk' src idx).get t = -src.get (idx t) := by
  simp [Swz.negSwz, C72_swizzle_scalar]

/-- C72: dividing by a swizzle is undefined exactly if a named element is zero, whatever the uninitialised memory holds. -/
theorem C72_vec_div_swizzle [DecidableEq K] [Zero K] [Div K] (conv : Bool) (junk junk' : ℕ → K) (lhs : Vec c K k p) (src : Vec c K dim p2)
    (idx : Fin k → Fin dim) :
    ((Swz.vecDivSwz conv junk junk' lhs src idx).isSome = true ↔ ∀ t, src.get (idx t) ≠ 0) ∧
    ∀ r, Swz.vecDivSwz conv junk junk' lhs src idx = some r → ∀ t, r.get t = lhs.get t / src.get (idx t) := by
  refine ⟨?_, fun r hr t => ?_⟩
  · rw [Swz.vecDivSwz, C02_div_defined_iff]; simp only [C05_read]
  · have := (C02_div_value _ _ _ _ hr).1 t
    rwa [C05_read] at this

theorem C72_swizzle_div_vec [DecidableEq K] [Zero K] [Div K] (conv : Bool) (junk junk' : ℕ → K) (src : Vec c K dim p) (idx : Fin k → Fin dim)
    (rhs : Vec c K k p2) :
    ((Swz.swzDivVec conv junk junk' src idx rhs).isSome = true ↔ ∀ t, rhs.get t ≠ 0) ∧
    ∀ r, Swz.swzDivVec conv junk junk' src idx rhs = some r → ∀ t, r.get t = src.get (idx t) / rhs.get t := by
  refine ⟨?_, fun r hr t => ?_⟩
  · rw [Swz.swzDivVec, C02_div_defined_iff]
  · have := (C02_div_value _ _ _ _ hr).1 t
    rwa [C05_read] at this

theorem C72_swizzle_div_swizzle [DecidableEq K] [Zero K] [Div K] (conv : Bool) (junk junk' junk2 junk2' : ℕ → K) (src : Vec c K dim p)
    (idx : Fin k → Fin dim) (src2 : Vec c K dim2 p2) (idx2 : Fin k → Fin dim2) :
    ((Swz.swzDivSwz conv junk junk' junk2 junk2' src idx src2 idx2).isSome = true ↔ ∀ t, src2.get (idx2 t) ≠ 0) ∧
    ∀ r, Swz.swzDivSwz conv junk junk' junk2 junk2' src idx src2 idx2 = some r → ∀ t, r.get t = src.get (idx t) / src2.get (idx2 t) := by
  refine ⟨?_, fun r hr t => ?_⟩
  · rw [Swz.swzDivSwz, C02_div_defined_iff]; simp only [C05_read]
  · have := (C02_div_value _ _ _ _ hr).1 t
    rwa [C05_read, C05_read] at this

theorem C72_swizzle_div_scalar [DecidableEq K] [Zero K] [Div K] (conv : Bool) (junk junk' : ℕ → K) (src : Vec c K dim p) (idx : Fin k → Fin dim) (x : K)
    (hk : 0 < k) :
    ((Swz.swzDivScalar conv junk junk' src idx x).isSome = true ↔ x ≠ 0) ∧
    ∀ r, Swz.swzDivScalar conv junk junk' src idx x = some r → ∀ t, r.get t = src.get (idx t) / x := by
  have := C02_div_scalar conv (Swz.toVec junk junk' src idx : Vec c K k p) x hk
  refine ⟨this.1, fun r hr t => ?_⟩
  rw [this.2 r hr t, C05_read]

theorem C72_scalar_div_swizzle [DecidableEq K] [Zero K] [Div K] (conv : Bool) (junk junk' : ℕ → K) (x : K) (src : Vec c K dim p) (idx : Fin k → Fin dim) :
    ((Swz.scalarDivSwz conv junk junk' x src idx).isSome = true ↔ ∀ t, src.get (idx t) ≠ 0) ∧
    ∀ r, Swz.scalarDivSwz conv junk junk' x src idx = some r → ∀ t, r.get t = x / src.get (idx t) := by
  have := C02_scalar_div conv x (Swz.toVec junk junk' src idx : Vec c K k p)
  refine ⟨this.1.trans (by simp only [C05_read]), fun r hr t => ?_⟩
  rw [this.2 r hr t, C05_read]

/-- Non-vacuity: `v.zx / v.yy` of (2, 3, 12) with any padding is (4, 0) in ℕ; with a zero in `y` it is undefined. -/
example : ((Swz.swzDivSwz true (fun _ => 0) (fun _ => 0) (fun _ => 0) (fun _ => 0) (⟨![2, 3, 12, 0]⟩ : Vec Cfg.sse ℕ 3 false) ![2, 0]
    (⟨![2, 3, 12, 0]⟩ : Vec Cfg.sse ℕ 3 false) ![1, 1]).map fun r => (r.get 0, r.get 1)) = some (4, 0) := by decide
example : (Swz.swzDivSwz true (fun _ => 5) (fun _ => 5) (fun _ => 5) (fun _ => 5) (⟨![2, 0, 12, 1]⟩ : Vec Cfg.sse ℕ 3 false) ![2, 0]
    (⟨![2, 0, 12, 1]⟩ : Vec Cfg.sse ℕ 3 false) ![1, 1]).isSome = false := by decide

/-! ## C73 -/

/-- C73: `v OP= w` replaces every element by the converted result, also if `w` is `v`. -/
theorem C73_vector [Zero A] [Zero C] (conv : Bool) (cast : C → A) (f : A → B → C) (v : Vec cA A dim p) (w : Vec cB B dim p2) (i : Fin dim) :
    (Vec.compound conv cast f cC v w).get i = cast (f (v.get i) (w.get i)) := by
  simp [Vec.compound]

/-- C73: `v OP= x` uses the value that `x` had before, also if `x` is an element of `v`. -/
theorem C73_scalar [Zero A] [Zero B] [Zero C] (conv : Bool) (cast : C → A) (f : A → B → C) (v : Vec cA A dim p) (x : B) (i : Fin dim) :
    (Vec.compoundScalar conv cast f cB cC v x).get i = cast (f (v.get i) x) := by
  simp [Vec.compoundScalar]

/-- Assigning a result to a swizzle with distinct letters. -/
private theorem storeResult_spec [Zero A] (cast : C → A) (sr : Bool) (junk : ℕ → A) (dst : Vec cA A dim p) (idx : Fin k → Fin dim) (res : Vec cC C k p2)
    (hinj : Function.Injective idx) (hd : dim ≤ 4) :
    ∃ r, Swz.storeResult cast sr junk dst idx res = some r ∧ (∀ t, r.get (idx t) = cast (res.get t)) ∧ ∀ j, (∀ t, idx t ≠ j) → r.get j = dst.get j := by
  unfold Swz.storeResult
  split
  · rename_i h
    obtain ⟨rfl, _⟩ := h
    refine ⟨_, rfl, ?_, ?_⟩
    · intro t
      rw [C06_assign_scalar, Subsingleton.elim t ⟨0, by omega⟩, if_pos rfl]
    · intro j hj
      rw [C06_assign_scalar, if_neg (hj _).symm]
  · obtain ⟨r, h1, h2, h3⟩ := C06_assign_vec junk dst idx (Vec.convert cast res : Vec cA A k p2) hinj hd
    exact ⟨r, h1, fun t => by rw [h2, Vec.get_convert], h3⟩

/-- C73: `v.<letters> OP= w` with distinct letters combines the named elements with those of `w` and leaves the others alone. -/
theorem C73_swizzle_vec [Zero A] [Zero C] (conv : Bool) (cast : C → A) (f : A → B → C) (junk junk' junk3 : ℕ → A) (dst : Vec cA A dim p)
    (idx : Fin k → Fin dim) (w : Vec cB B k p2) (hinj : Function.Injective idx) (hd : dim ≤ 4) :
    ∃ r, Swz.compoundVec conv cast f cC junk junk' junk3 dst idx w = some r ∧ (∀ t, r.get (idx t) = cast (f (dst.get (idx t)) (w.get t))) ∧
      ∀ j, (∀ t, idx t ≠ j) → r.get j = dst.get j := by
  obtain ⟨r, h1, h2, h3⟩ := storeResult_spec cast false junk3 dst idx (Swz.swzOpVec conv f junk junk' dst idx w : Vec cC C k (p && p2)) hinj hd
  exact ⟨r, h1, fun t => by rw [h2, C72_swizzle_vec], h3⟩

/-- C73: `v.<letters> OP= w.<letters2>`: the elements of `w` are the ones from before the assignment, also if `w` is `v` and the letters overlap. -/
theorem C73_swizzle_swizzle [Zero A] [Zero B] [Zero C] (conv : Bool) (cast : C → A) (f : A → B → C) (junk junk' junk3 : ℕ → A) (junk2 junk2' : ℕ → B)
    (dst : Vec cA A dim p) (idx : Fin k → Fin dim) (w : Vec cB B dim2 p2) (idx2 : Fin k → Fin dim2) (hinj : Function.Injective idx) (hd : dim ≤ 4) :
    ∃ r, Swz.compoundSwz conv cast f cC junk junk' junk3 junk2 junk2' dst idx w idx2 = some r ∧
      (∀ t, r.get (idx t) = cast (f (dst.get (idx t)) (w.get (idx2 t)))) ∧ ∀ j, (∀ t, idx t ≠ j) → r.get j = dst.get j := by
  obtain ⟨r, h1, h2, h3⟩ := storeResult_spec cast true junk3 dst idx
    (Swz.swzOpSwz conv f junk junk' junk2 junk2' dst idx w idx2 : Vec cC C k (p && p2)) hinj hd
  exact ⟨r, h1, fun t => by rw [h2, C72_swizzle_swizzle], h3⟩

/-- C73: `v.<letters> OP= x`. -/
theorem C73_swizzle_scalar [Zero A] [Zero B] [Zero C] (conv : Bool) (cast : C → A) (f : A → B → C) (junk junk' junk3 : ℕ → A)
    (dst : Vec cA A dim p) (idx : Fin k → Fin dim) (x : B) (hinj : Function.Injective idx) (hd : dim ≤ 4) :
    ∃ r, Swz.compoundScalar conv cast f cB cC junk junk' junk3 dst idx x = some r ∧
      (∀ t, r.get (idx t) = cast (f (dst.get (idx t)) x)) ∧ ∀ j, (∀ t, idx t ≠ j) → r.get j = dst.get j := by
  obtain ⟨r, h1, h2, h3⟩ := storeResult_spec cast true junk3 dst idx
    (Swz.swzOpScalar (cB := cB) conv f junk junk' dst idx x : Vec cC C k (p && p)) hinj hd
  exact ⟨r, h1, fun t => by rw [h2, C72_swizzle_scalar], h3⟩

/-- Non-vacuity: `v.xy += v.yx` of (1, 10, 100) is (11, 11, 100); `v.z *= 3` is (1, 10, 300). -/
example : ((Swz.compoundSwz true id (· + ·) Cfg.sse (fun _ => 7) (fun _ => 8) (fun _ => 9) (fun _ => 7) (fun _ => 8)
    (⟨![1, 10, 100, 0]⟩ : Vec Cfg.sse ℕ 3 false) ![0, 1] (⟨![1, 10, 100, 0]⟩ : Vec Cfg.sse ℕ 3 false) ![1, 0]).map
      fun r => (r.get 0, r.get 1, r.get 2)) = some (11, 11, 100) := by decide
example : ((Swz.compoundScalar true id (· * ·) Cfg.sse Cfg.sse (fun _ => 7) (fun _ => 8) (fun _ => 9)
    (⟨![1, 10, 100, 0]⟩ : Vec Cfg.sse ℕ 3 false) ![2] 3).map fun r => (r.get 0, r.get 1, r.get 2)) = some (1, 10, 300) := by decide

end Mathter.Props
