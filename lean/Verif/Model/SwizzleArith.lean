import Verif.Model.Swizzle

/-!
# Arithmetic with swizzles and compound assignment

Models the swizzle operators and the compound assignments of `include/Mathter/Vector/Arithmetic.hpp`. As in `Model/Swizzle.lean` a swizzle is its
source vector with an index tuple. The operands may have different scalar types `A`, `B`; the functor gives the type `C`.
-/

namespace Mathter
universe u v w
variable {A : Type u} {B : Type v} {C : Type w} {K : Type u}

namespace Swz
variable {cA cB cC c : Cfg} {dim dim2 k : ℕ} {p p2 : Bool}

/-- `operator OP(Vector, Swizzle)` — Vector/Arithmetic.hpp:74-80. `Vector(rhs)` has the packing of the swizzle (deduction guide,
Vector/Vector.hpp:250-251). -/
def vecOpSwz [Zero B] [Zero C] (conv : Bool) (f : A → B → C) (junk junk' : ℕ → B) (lhs : Vec cA A k p) (src : Vec cB B dim p2) (idx : Fin k → Fin dim) :
    Vec cC C k (p && p2) :=
  Vec.doBinary conv f lhs (toVec junk junk' src idx : Vec cB B k p2)

/-- `operator OP(Swizzle, Vector)` — Vector/Arithmetic.hpp:83-89. -/
def swzOpVec [Zero A] [Zero C] (conv : Bool) (f : A → B → C) (junk junk' : ℕ → A) (src : Vec cA A dim p) (idx : Fin k → Fin dim) (rhs : Vec cB B k p2) :
    Vec cC C k (p && p2) :=
  Vec.doBinary conv f (toVec junk junk' src idx : Vec cA A k p) rhs

/-- `operator OP(Swizzle, Swizzle)` before the conversion of a single element to a scalar — Vector/Arithmetic.hpp:92-105. -/
def swzOpSwz [Zero A] [Zero B] [Zero C] (conv : Bool) (f : A → B → C) (junk junk' : ℕ → A) (junk2 junk2' : ℕ → B) (src : Vec cA A dim p)
    (idx : Fin k → Fin dim) (src2 : Vec cB B dim2 p2) (idx2 : Fin k → Fin dim2) : Vec cC C k (p && p2) :=
  Vec.doBinary conv f (toVec junk junk' src idx : Vec cA A k p) (toVec junk2 junk2' src2 idx2 : Vec cB B k p2)

/-- `operator OP(Swizzle, scalar)` before the conversion of a single element to a scalar — Vector/Arithmetic.hpp:108-120. -/
def swzOpScalar [Zero A] [Zero B] [Zero C] (conv : Bool) (f : A → B → C) (junk junk' : ℕ → A) (src : Vec cA A dim p) (idx : Fin k → Fin dim) (x : B) :
    Vec cC C k (p && p) :=
  Vec.doBinary conv f (toVec junk junk' src idx : Vec cA A k p) (Vec.fill x : Vec cB B k p)

/-- `operator OP(scalar, Swizzle)` before the conversion of a single element to a scalar — Vector/Arithmetic.hpp:123-135. -/
def scalarOpSwz [Zero A] [Zero B] [Zero C] (conv : Bool) (f : A → B → C) (junk junk' : ℕ → B) (x : A) (src : Vec cB B dim p) (idx : Fin k → Fin dim) :
    Vec cC C k (p && p) :=
  Vec.doBinary conv f (Vec.fill x : Vec cA A k p) (toVec junk junk' src idx : Vec cB B k p)

/-- Unary minus of a swizzle — Vector/Arithmetic.hpp:219-222: `arg * -static_cast<T1>(1)`. -/
def negSwz [Ring K] (conv : Bool) (junk junk' : ℕ → K) (src : Vec c K dim p) (idx : Fin k → Fin dim) : Vec c K k (p && p) :=
  swzOpScalar (cB := c) conv (· * ·) junk junk' src idx (-1)

/-- `operator/` with a swizzle on the right and `divides_safe` — Vector/Arithmetic.hpp:74-80, 154 (one scalar type). -/
def vecDivSwz [DecidableEq K] [Zero K] [Div K] (conv : Bool) (junk junk' : ℕ → K) (lhs : Vec c K k p) (src : Vec c K dim p2) (idx : Fin k → Fin dim) :
    Option (Vec c K k (p && p2)) :=
  Vec.div conv lhs (toVec junk junk' src idx : Vec c K k p2)

/-- `operator/(Swizzle, Vector)` — Vector/Arithmetic.hpp:83-89, 159. -/
def swzDivVec [DecidableEq K] [Zero K] [Div K] (conv : Bool) (junk junk' : ℕ → K) (src : Vec c K dim p) (idx : Fin k → Fin dim) (rhs : Vec c K k p2) :
    Option (Vec c K k (p && p2)) :=
  Vec.div conv (toVec junk junk' src idx : Vec c K k p) rhs

/-- `operator/(Swizzle, Swizzle)` — Vector/Arithmetic.hpp:92-105, 164. -/
def swzDivSwz [DecidableEq K] [Zero K] [Div K] (conv : Bool) (junk junk' junk2 junk2' : ℕ → K) (src : Vec c K dim p) (idx : Fin k → Fin dim)
    (src2 : Vec c K dim2 p2) (idx2 : Fin k → Fin dim2) : Option (Vec c K k (p && p2)) :=
  Vec.div conv (toVec junk junk' src idx : Vec c K k p) (toVec junk2 junk2' src2 idx2 : Vec c K k p2)

/-- `operator/(Swizzle, scalar)` — Vector/Arithmetic.hpp:108-120, 169: plain `std::divides`, also on the padding lanes. -/
def swzDivScalar [DecidableEq K] [Zero K] [Div K] (conv : Bool) (junk junk' : ℕ → K) (src : Vec c K dim p) (idx : Fin k → Fin dim) (x : K) :
    Option (Vec c K k (p && p)) :=
  Vec.divScalar conv (toVec junk junk' src idx : Vec c K k p) x

/-- `operator/(scalar, Swizzle)` — Vector/Arithmetic.hpp:123-135, 174. -/
def scalarDivSwz [DecidableEq K] [Zero K] [Div K] (conv : Bool) (junk junk' : ℕ → K) (x : K) (src : Vec c K dim p) (idx : Fin k → Fin dim) :
    Option (Vec c K k (p && p)) :=
  Vec.scalarDiv conv x (toVec junk junk' src idx : Vec c K k p)

/-- What `lhs = result` of a compound assignment does with the result of one of the operators returning a vector or, for a single letter and an
operand that is not a vector, the scalar `result[0]` — Vector/Arithmetic.hpp:98-103, 186-190 with Vector/Swizzle.hpp:177-183, 277-286.
`cast` converts the scalar type of the result. -/
def storeResult [Zero A] (cast : C → A) (scalarResult : Bool) (junk : ℕ → A) (dst : Vec cA A dim p) (idx : Fin k → Fin dim) (res : Vec cC C k p2) :
    Option (Vec cA A dim p) :=
  if h : k = 1 ∧ scalarResult = true then some (assignScalar dst (idx ⟨0, by omega⟩) (cast (res.get ⟨0, by omega⟩)))
  else assignVec junk dst idx (Vec.convert cast res : Vec cA A k p2)

/-- `v.<idx> OP= w` for a vector `w` — Vector/Arithmetic.hpp:186-190: `lhs = lhs OP rhs`. -/
def compoundVec [Zero A] [Zero C] (conv : Bool) (cast : C → A) (f : A → B → C) (cC : Cfg) (junk junk' junk3 : ℕ → A) (dst : Vec cA A dim p)
    (idx : Fin k → Fin dim) (w : Vec cB B k p2) : Option (Vec cA A dim p) :=
  storeResult cast false junk3 dst idx (swzOpVec conv f junk junk' dst idx w : Vec cC C k (p && p2))

/-- `v.<idx> OP= w.<idx2>`; `w` may be `v`. (Vector/Arithmetic.hpp:186-190.) -/
def compoundSwz [Zero A] [Zero B] [Zero C] (conv : Bool) (cast : C → A) (f : A → B → C) (cC : Cfg) (junk junk' junk3 : ℕ → A) (junk2 junk2' : ℕ → B)
    (dst : Vec cA A dim p) (idx : Fin k → Fin dim) (w : Vec cB B dim2 p2) (idx2 : Fin k → Fin dim2) : Option (Vec cA A dim p) :=
  storeResult cast true junk3 dst idx (swzOpSwz conv f junk junk' junk2 junk2' dst idx w idx2 : Vec cC C k (p && p2))

/-- `v.<idx> OP= x` for a scalar `x`. (Vector/Arithmetic.hpp:179-190.) -/
def compoundScalar [Zero A] [Zero B] [Zero C] (conv : Bool) (cast : C → A) (f : A → B → C) (cB cC : Cfg) (junk junk' junk3 : ℕ → A)
    (dst : Vec cA A dim p) (idx : Fin k → Fin dim) (x : B) : Option (Vec cA A dim p) :=
  storeResult cast true junk3 dst idx (swzOpScalar (cB := cB) conv f junk junk' dst idx x : Vec cC C k (p && p))

end Swz

namespace Vec
variable {cA cB cC : Cfg} {dim : ℕ} {p p2 : Bool}

/-- `v OP= w` — Vector/Arithmetic.hpp:179-183: `lhs = lhs OP rhs`, the result being converted by the converting constructor
(Vector/Vector.hpp:266-273) unless it has the type of `v`, in which case it is copied. -/
def compound [Zero A] [Zero C] (conv : Bool) (cast : C → A) (f : A → B → C) (cC : Cfg) (v : Vec cA A dim p) (w : Vec cB B dim p2) : Vec cA A dim p :=
  convert cast (doBinary conv f v w : Vec cC C dim (p && p2))

/-- `v OP= x` for a scalar `x`, which may be an element of `v`: the scalar is copied to a vector before anything is written. (Vector/Arithmetic.hpp:179-190.) -/
def compoundScalar [Zero A] [Zero B] [Zero C] (conv : Bool) (cast : C → A) (f : A → B → C) (cB cC : Cfg) (v : Vec cA A dim p) (x : B) : Vec cA A dim p :=
  convert cast (doBinary conv f v (fill x : Vec cB B dim p) : Vec cC C dim (p && p))

end Vec
end Mathter
