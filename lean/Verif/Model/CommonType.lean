import Mathlib.Data.List.Basic

/-!
# The common type of several operands

Models `common_arithmetic_type` of `include/Mathter/Common/TypeTraits.hpp`, which decides the element type of vectors, scales and translations built from
mixed arguments (Vector/Vector.hpp:254-257, Transforms/ScaleBuilder.hpp:89, TranslationBuilder.hpp:85).
-/

namespace Mathter

/-- The real arithmetic types, for a platform where `long` has 64 bits; `bool`, character types and `long long` are left out.
(the arguments `T...` of Common/TypeTraits.hpp:330-365.) -/
inductive RealTy where
  | i8 | u8 | i16 | u16 | i32 | u32 | i64 | u64 | f32 | f64 | f80
  deriving DecidableEq

/-- Scalar types: the real types and `std::complex` of floating-point types. (the arguments `T...` of Common/TypeTraits.hpp:330-365.) -/
inductive ScTy where
  | real (t : RealTy)
  | complex (t : RealTy)
  deriving DecidableEq

namespace ScTy

/-- Integral promotion. (part of `std::plus<>`, Common/TypeTraits.hpp:347, 352.) -/
def promote : RealTy → RealTy
  | .i8 => .i32
  | .u8 => .i32
  | .i16 => .i32
  | .u16 => .i32
  | t => t

/-- The usual arithmetic conversions after promotion: `long double`, `double`, `float` take precedence in this order, then the wider integer, then the
unsigned one. (part of `std::plus<>`, Common/TypeTraits.hpp:347, 352.) -/
def usual : RealTy → RealTy → RealTy
  | .f80, _ => .f80
  | _, .f80 => .f80
  | .f64, _ => .f64
  | _, .f64 => .f64
  | .f32, _ => .f32
  | _, .f32 => .f32
  | .u64, _ => .u64
  | _, .u64 => .u64
  | .i64, _ => .i64
  | _, .i64 => .i64
  | .u32, _ => .u32
  | _, .u32 => .u32
  | _, _ => .i32

/-- `std::invoke_result_t<std::plus<>, U1, U2>`; `none` if the operands cannot be added: the operators of `std::complex<T>` are templates and accept only
`std::complex<T>` and `T` itself. (Common/TypeTraits.hpp:347, 352.) -/
def plus : ScTy → ScTy → Option ScTy
  | .real s, .real t => some (.real (usual (promote s) (promote t)))
  | .complex s, .complex t => if s = t then some (.complex s) else none
  | .complex s, .real t => if s = t then some (.complex s) else none
  | .real s, .complex t => if s = t then some (.complex t) else none

/-- The member `type` of `impl::common_arithmetic_type` — Common/TypeTraits.hpp:333-357. The first operand may be `void` (inner `none`), which is what
`get_type(...)` returns for operands that cannot be added; adding something to `void` is an error outside of the immediate context (outer `none`). -/
def typeFold : Option ScTy → List ScTy → Option (Option ScTy)
  | t, [] => some t
  | none, _ :: _ => none
  | some a, b :: rest => typeFold (plus a b) rest

/-- The member `valid` of `impl::common_arithmetic_type` — Common/TypeTraits.hpp:333-358: neighbouring types are checked. -/
def validFold : List ScTy → Bool
  | [] => false
  | [_] => true
  | a :: b :: rest => (plus a b).isSome && validFold (b :: rest)

/-- Whether all classes that `valid` refers to can be instantiated: their member `type` is instantiated with them. (Common/TypeTraits.hpp:357-358.) -/
def instantiable : List ScTy → Bool
  | [] => true
  | a :: rest => (typeFold (some a) rest).isSome && instantiable rest

/-- What `common_arithmetic_type_t<T...>` can be. (Common/TypeTraits.hpp:364-365, 382.) -/
inductive Common where
  /-- substitution failure -/
  | rejected
  /-- compilation stops -/
  | error
  | void
  | type (t : ScTy)
  deriving DecidableEq

/-- `common_arithmetic_type_t<T...>` — Common/TypeTraits.hpp:364-365, 382. -/
def common : List ScTy → Common
  | [] => .rejected
  | a :: rest =>
    if instantiable (a :: rest) then
      if validFold (a :: rest) then
        match typeFold (some a) rest with
        | some (some t) => .type t
        | _ => .void
      else .rejected
    else .error

end ScTy
end Mathter
