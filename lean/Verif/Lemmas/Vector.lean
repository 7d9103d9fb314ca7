import Mathlib.Algebra.BigOperators.Fin
import Mathlib.Tactic.Ring
import Verif.Model.Swizzle

/-! Helper lemmas about the storage-level vector model. -/

namespace Mathter
universe u v w
variable {K : Type u} {A : Type u} {B : Type v} {C : Type w}

namespace Vec
variable {c cA cB cC cD : Cfg} {dim : ℕ} {p p1 p2 p3 : Bool}

@[simp] theorem get_ofFn [Zero K] (f : Fin dim → K) (i : Fin dim) : (ofFn f : Vec c K dim p).get i = f i := by
  simp [get, ofFn]

@[simp] theorem get_store (h : isBatched c dim p = true) (b : Fin (batchSize dim false) → K) (i : Fin dim) :
    (store h b).get i = b ⟨i.val, Nat.lt_of_lt_of_le i.isLt (le_batchSize _ _)⟩ := rfl

theorem load_eq_get (v : Vec c K dim p) (h : isBatched c dim p = true) (i : Fin dim) :
    v.load h ⟨i.val, Nat.lt_of_lt_of_le i.isLt (le_batchSize _ _)⟩ = v.get i := rfl

theorem load_of_lt (v : Vec c K dim p) (h : isBatched c dim p = true) (l : Fin (batchSize dim false)) (hl : l.val < dim) :
    v.load h l = v.get ⟨l.val, hl⟩ := rfl

@[simp] theorem get_fill [Zero K] (x : K) (i : Fin dim) : (fill x : Vec c K dim p).get i = x := by
  unfold fill
  split
  · rfl
  · simp

@[simp] theorem get_convert [Zero B] {p2 : Bool} (cast : A → B) (o : Vec cA A dim p) (i : Fin dim) :
    (convert cast o : Vec cB B dim p2).get i = cast (o.get i) := by
  simp [convert]

theorem get_set (v : Vec c K dim p) (i j : Fin dim) (x : K) : (v.set i x).get j = if j = i then x else v.get j := by
  simp [get, set, Fin.ext_iff]

@[simp] theorem get_doUnary [Zero B] (conv : Bool) (f : A → B) (a : Vec cA A dim p) (i : Fin dim) :
    (doUnary conv f a : Vec cB B dim p).get i = f (a.get i) := by
  unfold doUnary
  split
  · simp [load_of_lt]
  · simp

@[simp] theorem get_doBinary [Zero C] (conv : Bool) (f : A → B → C) (a : Vec cA A dim p1) (b : Vec cB B dim p2) (i : Fin dim) :
    (doBinary conv f a b : Vec cC C dim (p1 && p2)).get i = f (a.get i) (b.get i) := by
  unfold doBinary
  split
  · simp [load_of_lt]
  · simp

@[simp] theorem get_doTernary {D : Type*} [Zero D] (conv : Bool) (f : A → B → C → D) (a : Vec cA A dim p1)
    (b : Vec cB B dim p2) (d : Vec cC C dim p3) (i : Fin dim) :
    (doTernary conv f a b d : Vec cD D dim (p1 && p2 && p3)).get i = f (a.get i) (b.get i) (d.get i) := by
  unfold doTernary
  split
  · simp [load_of_lt]
  · simp

theorem seqFin_eq_some {n : ℕ} {f : Fin n → Option K} {g : Fin n → K} :
    seqFin f = some g ↔ ∀ i, f i = some (g i) := by
  unfold seqFin
  split
  · rename_i h
    constructor
    · intro e i
      injection e with e
      rw [← e]
      simp
    · intro e
      congr 1
      funext i
      simp [e i]
  · rename_i h
    constructor
    · intro e; cases e
    · intro e
      exact absurd (fun i => by simp [e i]) h

theorem seqFin_isSome {n : ℕ} {f : Fin n → Option K} : (seqFin f).isSome = true ↔ ∀ i, (f i).isSome = true := by
  unfold seqFin
  split
  · rename_i h; simp [h]
  · rename_i h; simpa using h

end Vec
end Mathter
