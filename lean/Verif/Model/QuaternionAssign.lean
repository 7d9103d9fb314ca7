import Verif.Model.Quaternion

/-!
# Compound assignments, `!=` and literals of quaternions

The compound assignments accept operands of different scalar types `A` and `B`: the operator works in the common type `R`, reached by `up1` and `up2`, and
the assignment converts the elements back by `down`. The right operand may be the assigned object itself: the operator forms a temporary first.
-/

namespace Mathter.Quat
universe u v w
variable {A : Type u} {B : Type v} {R : Type w} {l l1 l2 : QLayout}

/-- Conversion of all elements to another scalar type, as in the converting constructors — Quaternion/Quaternion.hpp:176-195. -/
def mapElements (f : A → B) (q : Quat A l) : Quat B l := ⟨fun t => f (q.elements t)⟩

/-- `lhs = rhs` through the converting constructor — Quaternion/Quaternion.hpp:191-195. -/
def assignFrom [Zero A] (down : R → A) (l : QLayout) (q : Quat R l1) : Quat A l := ofCanonical l fun t => down (q.canonical t)

section ring
variable [Zero A] [CommRing R]

/-- `operator+=(Quaternion, Quaternion)` — Quaternion/Arithmetic.hpp:82-86. -/
def addAssign (up1 : A → R) (up2 : B → R) (down : R → A) (lhs : Quat A l1) (rhs : Quat B l2) : Quat A l1 :=
  assignFrom down l1 (add (mapElements up1 lhs) (mapElements up2 rhs))

/-- `operator-=(Quaternion, Quaternion)` — Quaternion/Arithmetic.hpp:89-93. -/
def subAssign (up1 : A → R) (up2 : B → R) (down : R → A) (lhs : Quat A l1) (rhs : Quat B l2) : Quat A l1 :=
  assignFrom down l1 (sub (mapElements up1 lhs) (mapElements up2 rhs))

/-- `operator*=(Quaternion, Quaternion)` — Quaternion/Arithmetic.hpp:96-100. -/
def mulAssign (up1 : A → R) (up2 : B → R) (down : R → A) (lhs : Quat A l1) (rhs : Quat B l2) : Quat A l1 :=
  assignFrom down l1 (mul (mapElements up1 lhs) (mapElements up2 rhs))

/-- `operator+=(Quaternion, scalar)` — Quaternion/Arithmetic.hpp:173-178. -/
def addAssignScalar (up1 : A → R) (up2 : B → R) (down : R → A) (lhs : Quat A l) (rhs : B) : Quat A l :=
  assignFrom down l (addScalar (mapElements up1 lhs) (up2 rhs))

/-- `operator-=(Quaternion, scalar)` — Quaternion/Arithmetic.hpp:181-186. -/
def subAssignScalar (up1 : A → R) (up2 : B → R) (down : R → A) (lhs : Quat A l) (rhs : B) : Quat A l :=
  assignFrom down l (subScalar (mapElements up1 lhs) (up2 rhs))

/-- `operator*=(Quaternion, scalar)` — Quaternion/Arithmetic.hpp:189-194. -/
def mulAssignScalar (up1 : A → R) (up2 : B → R) (down : R → A) (lhs : Quat A l) (rhs : B) : Quat A l :=
  assignFrom down l (mulScalar (mapElements up1 lhs) (up2 rhs))

end ring

/-- `operator/=(Quaternion, scalar)` — Quaternion/Arithmetic.hpp:197-202; `none` for a division by zero. -/
def divAssignScalar [Zero A] [Field R] [DecidableEq R] (up1 : A → R) (up2 : B → R) (down : R → A) (lhs : Quat A l) (rhs : B) : Option (Quat A l) :=
  if up2 rhs = 0 then none else some (assignFrom down l (divScalar (mapElements up1 lhs) (up2 rhs)))

/-- `operator!=` — Quaternion/Comparison.hpp:19-23. -/
def ne [DecidableEq A] (p : Quat A l1) (q : Quat A l2) : Bool := !eq p q

/-- `ScalarPart()` — Quaternion/Quaternion.hpp:246-249. -/
def scalarPart (q : Quat A l) : A := q.s

/-- `VectorPart()` — Quaternion/Quaternion.hpp:252-255. -/
def vectorPart (q : Quat A l) : Fin 3 → A := q.vec

/-- `Quaternion(Vector<4>)`: the elements in storage order — Quaternion/Quaternion.hpp:176-180. -/
def ofVector4 (f : B → A) (l : QLayout) (v : Fin 4 → B) : Quat A l := ⟨fun t => f (v t)⟩

/-- `Vector(q)`: the elements in storage order — Quaternion/Quaternion.hpp:234-242. -/
def toVector4 (f : A → B) (q : Quat A l) : Fin 4 → B := fun t => f (q.elements t)

/-- The literals `_i`, `_if`, `_il` of integers and floating point numbers; `conv` is the conversion of the argument — Quaternion/Literals.hpp:14-16, 24-26,
35-37, 45-47, 56-58, 66-68. -/
def litI [Zero A] (conv : B → A) (l : QLayout) (x : B) : Quat A l := mk4 l 0 (conv x) 0 0

/-- The literals `_j`, `_jf`, `_jl` — Quaternion/Literals.hpp:17-19, 27-29, 38-40, 48-50, 59-61, 69-71. -/
def litJ [Zero A] (conv : B → A) (l : QLayout) (x : B) : Quat A l := mk4 l 0 0 (conv x) 0

/-- The literals `_k`, `_kf`, `_kl` — Quaternion/Literals.hpp:20-22, 30-32, 41-43, 51-53, 62-64, 72-74. -/
def litK [Zero A] (conv : B → A) (l : QLayout) (x : B) : Quat A l := mk4 l 0 0 0 (conv x)

end Mathter.Quat
