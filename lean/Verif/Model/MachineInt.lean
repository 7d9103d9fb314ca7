import Mathlib.Algebra.BigOperators.Fin
import Verif.Model.VectorReduce

/-!
# Vectors of machine integers

Models the operators of `include/Mathter/Vector/Arithmetic.hpp` and the sums of `Vector/Math.hpp` for integer types of C++: promotion, conversion, overflow.
Values are integers; the theorems require them to lie in the range of their type.
-/

namespace Mathter

/-- A C++ integer type (not `bool`): number of bits and signedness. `int` has 32 bits; of several types with the same number of bits there is only one here.
(the arguments `T1`, `T2` of Vector/Arithmetic.hpp:51-71.) -/
structure IntTy where
  bits : ℕ
  signed : Bool
  deriving DecidableEq

namespace IntTy

/-- `std::int8_t`. (argument `T1` of Vector/Arithmetic.hpp:51-71.) -/
def i8 : IntTy := ⟨8, true⟩
/-- `std::uint8_t`. (argument `T1` of Vector/Arithmetic.hpp:51-71.) -/
def u8 : IntTy := ⟨8, false⟩
/-- `std::int16_t`. (argument `T1` of Vector/Arithmetic.hpp:51-71.) -/
def i16 : IntTy := ⟨16, true⟩
/-- `std::uint16_t`. (argument `T1` of Vector/Arithmetic.hpp:51-71.) -/
def u16 : IntTy := ⟨16, false⟩
/-- `int`. (argument `T1` of Vector/Arithmetic.hpp:51-71.) -/
def i32 : IntTy := ⟨32, true⟩
/-- `unsigned`. (argument `T1` of Vector/Arithmetic.hpp:51-71.) -/
def u32 : IntTy := ⟨32, false⟩
/-- `std::int64_t`. (argument `T1` of Vector/Arithmetic.hpp:51-71.) -/
def i64 : IntTy := ⟨64, true⟩
/-- `std::uint64_t`. (argument `T1` of Vector/Arithmetic.hpp:51-71.) -/
def u64 : IntTy := ⟨64, false⟩

/-- The smallest value, `std::numeric_limits<T>::min()`. (of the arguments of Vector/Arithmetic.hpp:51-71.) -/
def lo (t : IntTy) : ℤ := if t.signed then -2 ^ (t.bits - 1) else 0

/-- The largest value, `std::numeric_limits<T>::max()`. (of the arguments of Vector/Arithmetic.hpp:51-71.) -/
def hi (t : IntTy) : ℤ := if t.signed then 2 ^ (t.bits - 1) - 1 else 2 ^ t.bits - 1

/-- `static_cast<T>` between integer types: modulo `2 ^ bits` (for signed types since C++20, and in practice always).
(the operands' conversions in Vector/Arithmetic.hpp:51-71, the result of Vector/Math.hpp:143-153.) -/
def conv (t : IntTy) (x : ℤ) : ℤ := if t.signed then Int.bmod x (2 ^ t.bits) else x % 2 ^ t.bits

/-- Integral promotion. (part of the functors of Vector/Arithmetic.hpp:138-176.) -/
def promote (t : IntTy) : IntTy := if t.bits < 32 then i32 else t

/-- The usual arithmetic conversions of promoted types: the wider type, for equal widths the unsigned one.
(part of the functors of Vector/Arithmetic.hpp:138-176.) -/
def usual (s t : IntTy) : IntTy := if t.bits < s.bits then s else if s.bits < t.bits then t else ⟨s.bits, s.signed && t.signed⟩

/-- The type of the result of a binary operator, `std::invoke_result_t<Fun, T1, T2>` — Vector/OperationUtil.hpp:126, 135. -/
def common (s t : IntTy) : IntTy := usual (promote s) (promote t)

/-- What an operator of type `t` gives whose mathematical result is `x`: unsigned types wrap around, for signed ones overflow is undefined (`none`).
(the functors of Vector/Arithmetic.hpp:138-176.) -/
def result (t : IntTy) (x : ℤ) : Option ℤ :=
  if t.signed then if t.lo ≤ x ∧ x ≤ t.hi then some x else none else some (x % 2 ^ t.bits)

/-- The built-in `+`, `-`, `*` on operands of types `s` and `t`; `f` is the mathematical operation. (the functors of Vector/Arithmetic.hpp:138-176.) -/
def scalarOp (f : ℤ → ℤ → ℤ) (s t : IntTy) (a b : ℤ) : Option ℤ :=
  result (common s t) (f (conv (common s t) a) (conv (common s t) b))

/-- The built-in `/`, which truncates; a zero divisor is undefined (a trap), as is the smallest value divided by -1.
(the functors of Vector/Arithmetic.hpp:139, 144, 149.) -/
def scalarDiv (s t : IntTy) (a b : ℤ) : Option ℤ :=
  let r := common s t
  if conv r b = 0 then none else result r (Int.tdiv (conv r a) (conv r b))

end IntTy

namespace Vec
open IntTy
variable {c cA cB cC : Cfg} {dim : ℕ} {p p1 p2 : Bool}

/-- `operator+`, `-`, `*` of integer vectors — Vector/Arithmetic.hpp:51-55, 138-141 through `DoBinaryOp` (OperationUtil.hpp:124-142). Batches of one integer
type do not convert to another one, so that only operands of the result's type are combined lane by lane, where sums and products wrap around. -/
def opInt (f : ℤ → ℤ → ℤ) (s t : IntTy) (a : Vec cA ℤ dim p1) (b : Vec cB ℤ dim p2) : Option (Vec cC ℤ dim (p1 && p2)) :=
  if h : isBatched cA dim p1 = true ∧ isBatched cB dim p2 = true ∧ isBatched cC dim (p1 && p2) = true ∧ s = common s t ∧ t = common s t then
    some (store h.2.2.1 fun l => conv (common s t) (f (a.load h.1 l) (b.load h.2.1 l)))
  else (seqFin fun i => IntTy.scalarOp f s t (a.get i) (b.get i)).map ofFn

/-- `operator/` of integer vectors — Vector/Arithmetic.hpp:51-55, 139 with `divides_safe` (:33-48). xsimd divides integer batches lane by lane with the
built-in operator. -/
def divInt (s t : IntTy) (a : Vec cA ℤ dim p1) (b : Vec cB ℤ dim p2) : Option (Vec cC ℤ dim (p1 && p2)) :=
  if h : isBatched cA dim p1 = true ∧ isBatched cB dim p2 = true ∧ isBatched cC dim (p1 && p2) = true ∧ s = common s t ∧ t = common s t then
    (seqFin fun l => IntTy.scalarDiv s t (a.load h.1 l) (fillMaskedWithFirst dim (b.load h.2.1) l)).map fun x => store h.2.2.1 (fillMasked dim x 0)
  else (seqFin fun i => IntTy.scalarDiv s t (a.get i) (b.get i)).map ofFn

/-- `operator/(Vector, scalar)` of integers — Vector/Arithmetic.hpp:58-63, 144: `std::divides` on every lane, the divisor spread by the fill constructor. -/
def divScalarInt (s t : IntTy) (a : Vec cA ℤ dim p) (x : ℤ) : Option (Vec cC ℤ dim (p && p)) :=
  let b : Vec cB ℤ dim p := fill x
  if h : isBatched cA dim p = true ∧ isBatched cB dim p = true ∧ isBatched cC dim (p && p) = true ∧ s = common s t ∧ t = common s t then
    (seqFin fun l => IntTy.scalarDiv s t (a.load h.1 l) (b.load h.2.1 l)).map fun x => store h.2.2.1 x
  else (seqFin fun i => IntTy.scalarDiv s t (a.get i) (b.get i)).map ofFn

/-- Unary minus of integer vectors — Vector/Arithmetic.hpp:214-217: `arg * -static_cast<T1>(1)`. The scalar `-static_cast<T1>(1)` has the promoted type. -/
def negInt (t : IntTy) (a : Vec cA ℤ dim p) : Option (Vec cC ℤ dim (p && p)) :=
  ((promote t).result (-1)).bind fun m => opInt (cB := cB) (· * ·) t (promote t) a (fill m : Vec cB ℤ dim p)

/-- One step of `std::reduce` on elements of type `t`: the sum is computed in the promoted type and converted back. (Vector/Math.hpp:152.) -/
def sumStep (t : IntTy) (a b : Option ℤ) : Option ℤ :=
  a.bind fun x => b.bind fun y => (IntTy.scalarOp (· + ·) t t x y).map (conv t)

/-- `Sum` of integer vectors — Vector/Math.hpp:142-153. The initial value zero of `std::reduce` is left out. -/
def sumInt (t : IntTy) (tb : RTree (batchSize dim false)) (ts : RTree dim) (v : Vec c ℤ dim p) : Option ℤ :=
  if h : isBatched c dim p = true then some (tb.eval (fun x y => conv t (x + y)) (fillMasked dim (v.load h) 0))
  else ts.eval (sumStep t) fun i => some (v.get i)

/-- `Dot(lhs, rhs) = Sum(lhs * Conj(rhs))` of integer vectors — Vector/Math.hpp:176-180; `conj` does nothing to integers (Common/Functional.hpp:279-287). -/
def dotInt (s t : IntTy) (tb : RTree (batchSize dim false)) (ts : RTree dim) (a : Vec cA ℤ dim p1) (b : Vec cB ℤ dim p2) : Option ℤ :=
  (opInt (cC := cC) (· * ·) s t a b).bind (sumInt (common s t) tb ts)

/-- The argument of the square root in `Distance(lhs, rhs)` — Vector/Math.hpp:191-195, 198-202, 218-222: `Dot(v, v)` of the difference `v`. -/
def distSqInt (s t : IntTy) (tb : RTree (batchSize dim false)) (ts : RTree dim) (a : Vec cA ℤ dim p1) (b : Vec cB ℤ dim p2) : Option ℤ :=
  (opInt (cC := cC) (· - ·) s t a b).bind fun v => dotInt (cC := cC) (common s t) (common s t) tb ts v v

end Vec
end Mathter
