import Mathlib.Analysis.RCLike.Basic
import Mathlib.Data.BitVec
import Verif.Model.Matrix
import Verif.Model.Swizzle

/-!
# Elementwise functions, order changes, compound assignments and comparisons of single letters

Models the rest of `include/Mathter/Matrix/{Cast,Comparison,Arithmetic}.hpp`, the elementwise functions of `Vector/Math.hpp` and `Matrix/Math.hpp`
with the functors of `Common/Functional.hpp`, and `Vector/Comparison.hpp`.
-/

namespace Mathter
universe u v
variable {K : Type u} {A : Type u} {B : Type v}

/-! ## Elementwise functions -/

namespace Vec
variable {c cR : Cfg} {dim : ℕ} {p : Bool} {𝕜 : Type u} [RCLike 𝕜]

/-- `Abs(v)` — Vector/Math.hpp:107-111 with `abs` (Common/Functional.hpp:181-205). For complex elements the batch of the source does not convert to
the batch of the real result, so `conv` is false there (Vector/OperationUtil.hpp:63-84). -/
noncomputable def abs (conv : Bool) (v : Vec c 𝕜 dim p) : Vec cR ℝ dim p := doUnary conv (fun z => ‖z‖) v

/-- `Real(v)` — Vector/Math.hpp:114-118 with `real` (Common/Functional.hpp:208-237). -/
noncomputable def real (conv : Bool) (v : Vec c 𝕜 dim p) : Vec cR ℝ dim p := doUnary conv (fun z => RCLike.re z) v

/-- `Imag(v)` — Vector/Math.hpp:121-125 with `imag` (Common/Functional.hpp:240-269); zero for real elements. -/
noncomputable def imag (conv : Bool) (v : Vec c 𝕜 dim p) : Vec cR ℝ dim p := doUnary conv (fun z => RCLike.im z) v

/-- `Sqrt(v)` of a real vector — Vector/Math.hpp:135-139 with `sqrt` (Common/Functional.hpp:309-333). A negative element gives NaN in the code and 0
here; the theorems require elements that are not negative. -/
noncomputable def sqrt (conv : Bool) (v : Vec c ℝ dim p) : Vec c ℝ dim p := doUnary conv Real.sqrt v

/-- `Fill(lhs, all)` — Vector/Math.hpp:264-268. `cast` is `static_cast<T>`. -/
def fillAssign [Zero A] (cast : B → A) (_lhs : Vec c A dim p) (all : B) : Vec c A dim p := fill (cast all)

/-- One lane of `xsimd::abs` on signed integers of `w` bits, which wraps — Common/Functional.hpp:191-196. -/
def absLane {w : ℕ} (x : BitVec w) : BitVec w := if x.msb then -x else x

/-- `std::abs` on a signed integer type that is at least `int` — Common/Functional.hpp:181-186. `none`: the value is the smallest one, whose absolute
value does not exist (undefined behaviour of `std::abs`). -/
def absScalar {w : ℕ} (x : BitVec w) : Option (BitVec w) := if x = BitVec.intMin w then none else some (absLane x)

/-- All elements defined, or `none` (the argument pack of `DoUnaryOpScalar`, Vector/OperationUtil.hpp:105-109). -/
def traverseFin {n : ℕ} (f : Fin n → Option A) : Option (Fin n → A) :=
  if h : ∀ i, (f i).isSome then some fun i => (f i).get (h i) else none

/-- `Abs(v)` for integers — Vector/Math.hpp:107-111: lane by lane with SIMD, element by element without. -/
def absInt {w : ℕ} (conv : Bool) (v : Vec c (BitVec w) dim p) : Option (Vec c (BitVec w) dim p) :=
  if h : isBatched c dim p = true ∧ conv = true then some (store h.1 fun l => absLane (v.load h.1 l))
  else (traverseFin fun i => absScalar (v.get i)).map ofFn

end Vec

namespace Mat
variable {c cR : Cfg} {r k n : ℕ} {o : Order} {L L' : Layout} {p p1 p2 : Bool}

/-- The loop `r.stripes[stripe] = F(m.stripes[stripe])` with a result of another scalar type — Matrix/Math.hpp:65-73, 77-85, 90-98. -/
def mapStripesTo (func : ∀ {d : ℕ}, Vec c A d p → Vec cR B d p) (m0 : Mat cR B r n o L p) (m : Mat c A r n o L p) : Mat cR B r n o L p :=
  forUp (stripeCount L r n) 0 (fun s t => ⟨fun s' => if s' = s then func (m.stripes s) else t.stripes s'⟩) m0

variable {𝕜 : Type u} [RCLike 𝕜]

/-- `Abs(m)` — Matrix/Math.hpp:65-73. -/
noncomputable def abs (conv : Bool) (m0 : Mat cR ℝ r n o L p) (m : Mat c 𝕜 r n o L p) : Mat cR ℝ r n o L p :=
  mapStripesTo (fun v => Vec.abs conv v) m0 m

/-- `Real(m)` — Matrix/Math.hpp:77-85. -/
noncomputable def real (conv : Bool) (m0 : Mat cR ℝ r n o L p) (m : Mat c 𝕜 r n o L p) : Mat cR ℝ r n o L p :=
  mapStripesTo (fun v => Vec.real conv v) m0 m

/-- `Imag(m)` — Matrix/Math.hpp:90-98. -/
noncomputable def imag (conv : Bool) (m0 : Mat cR ℝ r n o L p) (m : Mat c 𝕜 r n o L p) : Mat cR ℝ r n o L p :=
  mapStripesTo (fun v => Vec.imag conv v) m0 m

/-! ## Order changes -/

/-- `FlipOrder(m, std::true_type)` — Matrix/Cast.hpp:41-45: the converting constructor from the opposite order. -/
def flipOrder [Zero K] (m0 : Mat c K n r o.flip L p) (m : Mat c K r n o L p) : Mat c K n r o.flip L p := convertOrder m0 m

/-- `FlipOrder(m, std::false_type)` — Matrix/Cast.hpp:46-50: `out.stripes = m.stripes`, which compiles only for square matrices. -/
def flipOrderKeep (m : Mat c K n n o L p) : Mat c K n n o.flip L p := ⟨m.stripes⟩

/-- `SetOrder<DesiredOrder>(m, std::true_type)` for square matrices — Matrix/Cast.hpp:57-61: `Mat(m)` is a copy if the order is already `d`, else the
converting constructor from the opposite order. (A matrix that is not square compiles only for the opposite order and is then `flipOrder`.) -/
def setOrder [Zero K] (d : Order) (m0 : Mat c K n n d L p) (m : Mat c K n n o L p) : Mat c K n n d L p :=
  match d, o, m0, m with
  | .follow, .follow, _, m => m
  | .precede, .precede, _, m => m
  | .follow, .precede, m0, m => convertOrder (o := .precede) m0 m
  | .precede, .follow, m0, m => convertOrder (o := .follow) m0 m

/-- `SetOrder<DesiredOrder>(m, std::false_type)` — Matrix/Cast.hpp:62-66; compiles only for square matrices. -/
def setOrderKeep (d : Order) (m : Mat c K n n o L p) : Mat c K n n d L p := ⟨m.stripes⟩

/-! ## Comparison -/

/-- `operator!=`, same order — Matrix/Comparison.hpp:43-46. -/
def ne [BEq K] (a : Mat c K r n o L p1) (b : Mat c K r n o L' p2) : Bool := !(eq a b)

/-- `operator!=`, opposite orders — Matrix/Comparison.hpp:37-40. -/
def neFlip [BEq K] (a : Mat c K r n o L p1) (b : Mat c K n r o.flip L' p2) : Bool := !(eqFlip a b)

/-! ## Compound assignments -/

/-- `a += b` — Matrix/Arithmetic.hpp:216-223, 231: sum into a temporary, then (converting) assignment. -/
def addAssign [AddMonoid K] (conv : Bool) (jr : Vec c K n p2) (jc : Vec c K r p2) (m0 : Mat c K r n o L (p1 && p2)) (a : Mat c K r n o L p1)
    (b : Mat c K r n o L' p2) : Mat c K r n o L p1 := convert a (add conv jr jc m0 a b)

/-- `a -= b` — Matrix/Arithmetic.hpp:216-223, 232. -/
def subAssign [AddGroup K] (conv : Bool) (jr : Vec c K n p2) (jc : Vec c K r p2) (m0 : Mat c K r n o L (p1 && p2)) (a : Mat c K r n o L p1)
    (b : Mat c K r n o L' p2) : Mat c K r n o L p1 := convert a (sub conv jr jc m0 a b)

/-- `a /= b` — Matrix/Arithmetic.hpp:216-223, 233. -/
def divAssign [DecidableEq K] [Zero K] [Div K] (conv : Bool) (jr : Vec c K n p2) (jc : Vec c K r p2) (m0 : Mat c K r n o L (p1 && p2))
    (a : Mat c K r n o L p1) (b : Mat c K r n o L' p2) : Option (Mat c K r n o L p1) := (div conv jr jc m0 a b).map (convert a)

/-- `a *= x`, `a += x`, `a -= x` with a scalar — Matrix/Arithmetic.hpp:250-257, 275, 277-278. -/
def opScalarAssign [Zero K] (conv : Bool) (f : K → K → K) (m0 : Mat c K r n o L (p && p)) (a : Mat c K r n o L p) (x : K) : Mat c K r n o L p :=
  convert a (opScalar conv f m0 a x)

/-- `a /= x` with a scalar — Matrix/Arithmetic.hpp:250-257, 276. -/
def divScalarAssign [DecidableEq K] [Zero K] [Div K] (conv : Bool) (m0 : Mat c K r n o L (p && p)) (a : Mat c K r n o L p) (x : K) :
    Option (Mat c K r n o L p) := (divScalar conv m0 a x).map (convert a)

/-- `v *= M` for a square matrix — Matrix/Arithmetic.hpp:366-372: product into a temporary, then (converting) assignment. -/
def vecMulAssign [CommSemiring K] [NeZero k] (conv : Bool) (tb : RTree (batchSize k false)) (ts : RTree k) (v0 : Vec c K k (p1 && p2))
    (lhs : Vec c K k p1) (rhs : Mat c K k k .follow L p2) : Vec c K k p1 := Vec.ofFn (vecMul conv tb ts v0 lhs rhs)

/-- `v *= M` with a homogeneous coordinate — Matrix/Arithmetic.hpp:375-381. -/
def vecMulHomogAssign [Field K] [DecidableEq K] (conv : Bool) (tb : RTree (batchSize (k + 1) false)) (ts : RTree (k + 1))
    (v0 : Vec c K (k + 1) (p1 && p2)) (q : Bool) (lhs : Vec c K k p1) (rhs : Mat c K (k + 1) (k + 1) .follow L p2) : Option (Vec c K k p1) :=
  (vecMulHomog conv tb ts v0 q lhs rhs).map fun v => Vec.convert id v

/-- `v *= M` for an affine matrix — Matrix/Arithmetic.hpp:384-390. -/
def vecMulAffineAssign [CommSemiring K] (conv : Bool) (tb : RTree (batchSize (k + 1) false)) (ts : RTree (k + 1))
    (v0 : Vec c K k (p1 && p2)) (lhs : Vec c K k p1) (rhs : Mat c K (k + 1) k .follow L p2) : Vec c K k p1 :=
  Vec.ofFn (vecMulAffine conv tb ts v0 lhs rhs)

/-- Unary plus — Matrix/Arithmetic.hpp:397-400. -/
def pos (a : Mat c K r n o L p) : Mat c K r n o L p := a

end Mat

/-! ## Comparisons of vectors, swizzles and scalars -/

namespace Swz
variable {c : Cfg} {dim k : ℕ} {p p2 : Bool}

/-- `operator==(Swizzle, Vector)` — Vector/Comparison.hpp:62-68. -/
def eqSwzVec [Zero K] [BEq K] (junk : ℕ → K) (src : Vec c K dim p) (idx : Fin k → Fin dim) (rhs : Vec c K k p2) : Bool :=
  (List.finRange k).all fun i => linearize junk src idx ⟨i.val, Nat.lt_of_lt_of_le i.isLt (le_storageSize c k p)⟩ == rhs.get i

/-- `operator!=(Vector, Swizzle)` — Vector/Comparison.hpp:50-53. -/
def neVecSwz [Zero K] [BEq K] (junk : ℕ → K) (lhs : Vec c K k p2) (src : Vec c K dim p) (idx : Fin k → Fin dim) : Bool := !(eqVecSwz junk lhs src idx)

/-- `operator!=(Swizzle, Vector)` — Vector/Comparison.hpp:72-75. -/
def neSwzVec [Zero K] [BEq K] (junk : ℕ → K) (src : Vec c K dim p) (idx : Fin k → Fin dim) (rhs : Vec c K k p2) : Bool := !(eqSwzVec junk src idx rhs)

/-- `operator!=(Swizzle, Swizzle)` — Vector/Comparison.hpp:95-98. -/
def neSwzSwz [Zero K] [BEq K] {dim2 : ℕ} (junk1 junk2 : ℕ → K) (src : Vec c K dim p) (idx : Fin k → Fin dim)
    (src2 : Vec c K dim2 p2) (idx2 : Fin k → Fin dim2) : Bool := !(eqSwzSwz junk1 junk2 src idx src2 idx2)

/-- The six comparison operators. (Vector/Comparison.hpp:105-185.) -/
inductive Cmp | eq | ne | lt | gt | le | ge
deriving DecidableEq

/-- Comparison of numbers by the built-in operators. (Vector/Comparison.hpp:105-185.) -/
def Cmp.eval [LinearOrder K] : Cmp → K → K → Bool
  | .eq, a, b => decide (a = b)
  | .ne, a, b => decide (a ≠ b)
  | .lt, a, b => decide (a < b)
  | .gt, a, b => decide (a > b)
  | .le, a, b => decide (a ≤ b)
  | .ge, a, b => decide (a ≥ b)

/-- `v.x OP s` for a single letter and a scalar — Vector/Comparison.hpp:105-141: `lhs[0] OP rhs`. `none`: the letter does not exist. -/
def cmpScalar [LinearOrder K] (op : Cmp) (src : Vec c K dim p) (idx : Fin 1 → Fin dim) (x : K) : Option Bool :=
  (get src idx 0).map fun y => op.eval y x

/-- `s OP v.x` — Vector/Comparison.hpp:149-185: `lhs OP rhs[0]`. -/
def scalarCmp [LinearOrder K] (op : Cmp) (x : K) (src : Vec c K dim p) (idx : Fin 1 → Fin dim) : Option Bool :=
  (get src idx 0).map fun y => op.eval x y

end Swz
end Mathter
