import Mathlib.Algebra.Group.Defs
import Mathlib.Algebra.Ring.Defs
import Mathlib.Algebra.Field.Defs
import Verif.Model.Loop

/-!
# Vectors at storage level

Models `include/Mathter/Vector/{SIMDUtil,Vector,OperationUtil,Arithmetic}.hpp`.
A vector is its storage array, padding lanes included.
-/

namespace Mathter

universe u v w
variable {K : Type u} {A : Type u} {B : Type v} {C : Type w}

/-- `GetBatchSize(Dim, Packed)` — Vector/SIMDUtil.hpp:13-30. -/
def batchSize (dim : ℕ) (packed : Bool) : ℕ :=
  if !packed then
    match dim with
    | 1 => 1
    | 2 => 2
    | 3 => 4
    | 4 => 4
    | 5 => 8
    | 6 => 8
    | 7 => 8
    | 8 => 8
    | d => d
  else dim

/-- Build configuration for one scalar type `T`: which lane counts `n` have a non-void
`xsimd::make_sized_batch<T, n>::type` (Vector/SIMDUtil.hpp:33-42). `MATHTER_ENABLE_SIMD` off is `Cfg.scalar`. -/
structure Cfg where
  hasBatch : ℕ → Bool

/-- Configuration without SIMD (Vector/SIMDUtil.hpp:35, `#if MATHTER_ENABLE_SIMD` not taken). -/
def Cfg.scalar : Cfg := ⟨fun _ => false⟩

/-- SSE-like configuration for `float`: batches of 4 lanes only (xsimd `make_sized_batch<float, 4>`). (an instance of the parameter of Vector/SIMDUtil.hpp:22-50.) -/
def Cfg.sse : Cfg := ⟨fun n => n == 4⟩

/-- `IsBatched<T, Dim, Packed>()` — Vector/SIMDUtil.hpp:33-42. -/
def isBatched (c : Cfg) (dim : ℕ) (packed : Bool) : Bool := !packed && c.hasBatch (batchSize dim packed)

/-- `GetStorageSize<T, Dim, Packed>()` — Vector/SIMDUtil.hpp:65-68. -/
def storageSize (c : Cfg) (dim : ℕ) (packed : Bool) : ℕ :=
  if isBatched c dim packed then batchSize dim packed else dim

theorem le_batchSize (dim : ℕ) (packed : Bool) : dim ≤ batchSize dim packed := by
  unfold batchSize
  split
  · split <;> omega
  · omega

theorem le_storageSize (c : Cfg) (dim : ℕ) (packed : Bool) : dim ≤ storageSize c dim packed := by
  unfold storageSize
  split
  · exact le_batchSize _ _
  · omega

/-- `Vector<T, Dim, Packed>` as its storage `std::array<T, GetStorageSize<T, Dim, Packed>()>`
(Vector/Vector.hpp:22-44, SIMDUtil.hpp:82-83). The unions with swizzles (Vector.hpp:47-83) share this array. -/
structure Vec (c : Cfg) (K : Type u) (dim : ℕ) (packed : Bool) where
  lanes : Fin (storageSize c dim packed) → K

namespace Vec
variable {c cA cB cC : Cfg} {dim : ℕ} {p p1 p2 p3 : Bool}

/-- `operator[]`, `operator()` (read) — Vector/Vector.hpp:376-397. Only indices below `Dim` are visible elements. -/
def get (v : Vec c K dim p) (i : Fin dim) : K := v.lanes ⟨i.val, Nat.lt_of_lt_of_le i.isLt (le_storageSize c dim p)⟩

/-- `v[i] = x` through the reference returned by `operator[]` — Vector/Vector.hpp:382-385. -/
def set (v : Vec c K dim p) (i : Fin dim) (x : K) : Vec c K dim p :=
  ⟨fun l => if l.val = i.val then x else v.lanes l⟩

/-- Constructors which write the `Dim` elements and then call `ZeroPadding()` — Vector/Vector.hpp:207-211.
Used by the converting constructor (Vector.hpp:266-273) and by `Vector<R, Dim, Packed>{ fun(arg[Indices])... }`
(OperationUtil.hpp:105-109). For `Dim == 1` the braces select the fill constructor instead; the stored value is the same
except that a padding lane does not exist then (`batchSize 1 = 1`). -/
def ofFn [Zero K] (f : Fin dim → K) : Vec c K dim p :=
  ⟨fun l => if h : l.val < dim then f ⟨l.val, h⟩ else 0⟩

/-- Converting constructor `Vector(const Vector<T2, Dim, Packed2>&)` — Vector/Vector.hpp:266-273.
`cast` is `static_cast<T>`. -/
def convert [Zero B] {cA cB : Cfg} {p2 : Bool} (cast : A → B) (other : Vec cA A dim p) : Vec cB B dim p2 :=
  ofFn fun i => cast (other.get i)

/-- Fill constructor `Vector(const T& all)` — Vector/Vector.hpp:310-319. -/
def fill [Zero K] (x : K) : Vec c K dim p :=
  if isBatched c dim p then ⟨fun _ => x⟩ else ofFn fun _ => x

/-- Pointer constructor `Vector(const T* elements)` — Vector/Vector.hpp:303-307.
`mem` is the readable memory starting at the pointer; reading past its end is `none`. -/
def ofPtr [Zero K] (mem : List K) : Option (Vec c K dim p) :=
  if h : dim ≤ mem.length then some (ofFn fun i => mem[i.val]) else none

end Vec

/-! ## Batches and `DoUnaryOp`, `DoBinaryOp`, `DoTernaryOp` -/

theorem storageSize_of_batched {c : Cfg} {dim : ℕ} {p : Bool} (h : isBatched c dim p = true) :
    storageSize c dim p = batchSize dim false := by
  unfold storageSize
  rw [if_pos h]
  unfold isBatched at h
  cases p
  · rfl
  · simp at h

namespace Vec
variable {c cA cB cC cD : Cfg} {dim : ℕ} {p p1 p2 p3 : Bool}

/-- `Elements::Load()` — Vector/Vector.hpp:28-31. Only for batched vectors. -/
def load (v : Vec c K dim p) (h : isBatched c dim p = true) : Fin (batchSize dim false) → K :=
  fun l => v.lanes (Fin.cast (storageSize_of_batched h).symm l)

/-- `Elements::Store(batch)` / batch constructor — Vector/Vector.hpp:33-35, 276-280. -/
def store (h : isBatched c dim p = true) (b : Fin (batchSize dim false) → K) : Vec c K dim p :=
  ⟨fun l => b (Fin.cast (storageSize_of_batched h) l)⟩

/-- `DoUnaryOp` — Vector/OperationUtil.hpp:105-121. `conv` stands for the remaining compile-time conditions of
`is_invocable_batched` (OperationUtil.hpp:63-84: batch conversions exist and the functor accepts batches). -/
def doUnary [Zero B] (conv : Bool) (f : A → B) (arg : Vec cA A dim p) : Vec cB B dim p :=
  if h : isBatched cA dim p = true ∧ isBatched cB dim p = true ∧ conv = true then
    store h.2.1 fun l => f (arg.load h.1 l)
  else ofFn fun i => f (arg.get i)

/-- `DoBinaryOp` — Vector/OperationUtil.hpp:124-142, for functors that act lane by lane on batches. -/
def doBinary [Zero C] (conv : Bool) (f : A → B → C) (lhs : Vec cA A dim p1) (rhs : Vec cB B dim p2) :
    Vec cC C dim (p1 && p2) :=
  if h : isBatched cA dim p1 = true ∧ isBatched cB dim p2 = true ∧ isBatched cC dim (p1 && p2) = true ∧ conv = true then
    store h.2.2.1 fun l => f (lhs.load h.1 l) (rhs.load h.2.1 l)
  else ofFn fun i => f (lhs.get i) (rhs.get i)

/-- `DoTernaryOp` — Vector/OperationUtil.hpp:145-163. -/
def doTernary {D : Type*} [Zero D] (conv : Bool) (f : A → B → C → D) (a : Vec cA A dim p1) (b : Vec cB B dim p2)
    (d : Vec cC C dim p3) : Vec cD D dim (p1 && p2 && p3) :=
  if h : isBatched cA dim p1 = true ∧ isBatched cB dim p2 = true ∧ isBatched cC dim p3 = true ∧
      isBatched cD dim (p1 && p2 && p3) = true ∧ conv = true then
    store h.2.2.2.1 fun l => f (a.load h.1 l) (b.load h.2.1 l) (d.load h.2.2.1 l)
  else ofFn fun i => f (a.get i) (b.get i) (d.get i)

/-! ## Operators -/

/-- `operator+(Vector, Vector)` — Vector/Arithmetic.hpp:51-55, 140. -/
def add [AddMonoid K] (conv : Bool) (a : Vec c K dim p1) (b : Vec c K dim p2) : Vec c K dim (p1 && p2) :=
  doBinary conv (· + ·) a b

/-- `operator-(Vector, Vector)` — Vector/Arithmetic.hpp:51-55, 141. -/
def sub [AddGroup K] (conv : Bool) (a : Vec c K dim p1) (b : Vec c K dim p2) : Vec c K dim (p1 && p2) :=
  doBinary conv (· - ·) a b

/-- `operator*(Vector, Vector)` — Vector/Arithmetic.hpp:51-55, 138. -/
def mul [MulZeroClass K] (conv : Bool) (a : Vec c K dim p1) (b : Vec c K dim p2) : Vec c K dim (p1 && p2) :=
  doBinary conv (· * ·) a b

/-- `operator OP(Vector, scalar)` — Vector/Arithmetic.hpp:58-63: the scalar is spread over a vector of the same packing. -/
def opScalar [Zero K] (conv : Bool) (f : K → K → K) (a : Vec c K dim p) (x : K) : Vec c K dim (p && p) :=
  doBinary conv f a (fill x : Vec c K dim p)

/-- `operator OP(scalar, Vector)` — Vector/Arithmetic.hpp:66-71. -/
def scalarOp [Zero K] (conv : Bool) (f : K → K → K) (x : K) (a : Vec c K dim p) : Vec c K dim (p && p) :=
  doBinary conv f (fill x : Vec c K dim p) a

/-- Unary minus — Vector/Arithmetic.hpp:214-217: `arg * -static_cast<T1>(1)`. -/
def neg [Ring K] (conv : Bool) (a : Vec c K dim p) : Vec c K dim (p && p) := opScalar conv (· * ·) a (-1)

/-- `MultiplyAdd` — Vector/Arithmetic.hpp:226-235 with `madd` (Common/Functional.hpp:34-71); `FMA` —
Vector/Arithmetic.hpp:238-248 with `fma` (Functional.hpp:74-120). Both compute `a*b+c` in exact arithmetic. -/
def fma [Semiring K] (conv : Bool) (a : Vec c K dim p1) (b : Vec c K dim p2) (d : Vec c K dim p3) :
    Vec c K dim (p1 && p2 && p3) :=
  doTernary conv (fun x y z => x * y + z) a b d

/-- `FMTA(a, b, c, d)` — Vector/Arithmetic.hpp:251-269. All four operands have one packing here. -/
def fmta [Ring K] (conv : Bool) (a b x d : Vec c K dim p) :
    Vec c K dim ((p && p && (p && p)) && (p && p && ((p && p) && (p && p)))) :=
  let w := mul conv d x
  let e := fma conv d x (neg conv w)
  let f := fma conv a b w
  add conv f e

/-! ## Division -/

/-- Scalar `/` with division by zero as a distinct outcome (integer trap; inf or NaN for floating point). (`std::divides` in Vector/Arithmetic.hpp:140, 148.) -/
def sdiv [DecidableEq K] [Zero K] [Div K] (x y : K) : Option K := if y = 0 then none else some (x / y)

/-- All lanes of a batch operation must be defined. (Vector/OperationUtil.hpp:41-89.) -/
def seqFin {n : ℕ} (f : Fin n → Option K) : Option (Fin n → K) :=
  if h : ∀ i, (f i).isSome = true then some fun i => (f i).get (h i) else none

/-- `FillMasked<NumNonMasked>(batch, value)` — Vector/OperationUtil.hpp:19-38. -/
def fillMasked {n : ℕ} (numNonMasked : ℕ) (b : Fin n → K) (x : K) : Fin n → K :=
  if numNonMasked = n then b else fun l => if l.val < numNonMasked then b l else x

/-- `FillMaskedWithFirst<NumNonMasked>(batch)` — Vector/OperationUtil.hpp:41-60 (a lane shuffle with lane 0 as filler). -/
def fillMaskedWithFirst {n : ℕ} (numNonMasked : ℕ) (b : Fin n → K) : Fin n → K :=
  fun l => b (if l.val < numNonMasked then l else ⟨0, Nat.lt_of_le_of_lt (Nat.zero_le _) l.isLt⟩)

/-- `divides_safe<void, NumValid>` on batches — Vector/Arithmetic.hpp:33-48. -/
def dividesSafe [DecidableEq K] [Zero K] [Div K] {n : ℕ} (numValid : ℕ) (lhs rhs : Fin n → K) : Option (Fin n → K) :=
  let filled := fillMaskedWithFirst numValid rhs
  (seqFin fun l => sdiv (lhs l) (filled l)).map fun result => fillMasked numValid result 0

/-- `operator/(Vector, Vector)` — Vector/Arithmetic.hpp:51-55, 139 through `DoBinaryOp` with `divides_safe`. -/
def div [DecidableEq K] [Zero K] [Div K] (conv : Bool) (lhs : Vec c K dim p1) (rhs : Vec c K dim p2) :
    Option (Vec c K dim (p1 && p2)) :=
  if h : isBatched c dim p1 = true ∧ isBatched c dim p2 = true ∧ isBatched c dim (p1 && p2) = true ∧ conv = true then
    (dividesSafe dim (lhs.load h.1) (rhs.load h.2.1)).map (store h.2.2.1)
  else (seqFin fun i => sdiv (lhs.get i) (rhs.get i)).map ofFn

/-- `operator/(Vector, scalar)` — Vector/Arithmetic.hpp:58-63, 144: plain `std::divides` on every lane, the divisor vector
having been built by the fill constructor. -/
def divScalar [DecidableEq K] [Zero K] [Div K] (conv : Bool) (lhs : Vec c K dim p) (x : K) :
    Option (Vec c K dim (p && p)) :=
  let rhsv : Vec c K dim p := fill x
  if h : isBatched c dim p = true ∧ isBatched c dim (p && p) = true ∧ conv = true then
    (seqFin fun l => sdiv (lhs.load h.1 l) (rhsv.load h.1 l)).map (store h.2.1)
  else (seqFin fun i => sdiv (lhs.get i) (rhsv.get i)).map ofFn

/-- `operator/(scalar, Vector)` — Vector/Arithmetic.hpp:66-71, 149. -/
def scalarDiv [DecidableEq K] [Zero K] [Div K] (conv : Bool) (x : K) (rhs : Vec c K dim p) :
    Option (Vec c K dim (p && p)) :=
  div conv (fill x : Vec c K dim p) rhs

/-! ## Homogeneous coordinates -/

/-- `Vector(const Vector<T2, Dim - 1, Packed2>& rhs) : Vector(rhs, 1)` — Vector/Vector.hpp:131-133 with the concatenating
constructor (Vector.hpp:339-367) for the two parts `rhs` and `1`. -/
def homogenize [Zero K] [One K] (rhs : Vec c K dim p2) : Vec c K (dim + 1) p :=
  ofFn fun i => if h : i.val < dim then rhs.get ⟨i.val, h⟩ else 1

/-- `Vector(const Vector<T2, Dim + 1, Packed2>& rhs)` — Vector/Vector.hpp:290-300. The delegated pointer constructor
reads the first `Dim` elements of `rhs.data()`; then either every lane of the batch or every element is divided. -/
def dehomogenize [DecidableEq K] [Zero K] [Div K] (rhs : Vec c K (dim + 1) p2) : Option (Vec c K dim p) :=
  let v : Vec c K dim p := ofFn fun i => rhs.get i.castSucc
  let divisor := rhs.get (Fin.last dim)
  if h : isBatched c dim p = true then (seqFin fun l => sdiv (v.load h l) divisor).map (store h)
  else (seqFin fun i => sdiv (v.get i) divisor).map ofFn

end Vec

/-! ## Concatenation -/

/-- An argument of the concatenating constructor: a scalar, or a vector/swizzle with the elements `part[0], part[1], …`
(`dimension_v`, Common/TypeTraits.hpp:117-130). -/
inductive Part (K : Type u) where
  | scalar (x : K)
  | seq (n : ℕ) (elems : Fin n → K)

/-- `dimension_v<Part>` — Common/TypeTraits.hpp:117-130. -/
def Part.dim : Part K → ℕ
  | .scalar _ => 1
  | .seq n _ => n

/-- `part[i]`, or the conversion of a one-dimensional part to the scalar type. (Vector/Vector.hpp:341-355.) -/
def Part.elem : (q : Part K) → Fin q.dim → K
  | .scalar x => fun _ => x
  | .seq _ f => f

/-- `impl::Assign<Offset>` — Vector/Vector.hpp:341-355: writes the parts one after the other; `none` if a write falls outside
the array. (`partDim > 1`: loop; otherwise the single element, which is `part[0]`.) -/
def assignParts {n : ℕ} (offset : ℕ) (a : Fin n → K) : List (Part K) → Option (Fin n → K)
  | [] => some a
  | q :: qs =>
    if offset + q.dim ≤ n then
      assignParts (offset + q.dim)
        (fun l => if h : offset ≤ l.val ∧ l.val - offset < q.dim then q.elem ⟨l.val - offset, h.2⟩ else a l) qs
    else none

/-- Concatenating constructor — Vector/Vector.hpp:360-367. `static_assert(totalDim == Dim)` is a hypothesis of the theorems;
`init` is the uninitialised array. -/
def Vec.concat [Zero K] {c : Cfg} {dim : ℕ} {p : Bool} (init : Fin (storageSize c dim p) → K) (parts : List (Part K)) :
    Option (Vec c K dim p) :=
  (assignParts 0 init parts).map fun a => ⟨fun l => if l.val < dim then a l else 0⟩

end Mathter
