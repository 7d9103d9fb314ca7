import Mathlib.Data.List.FinRange
import Mathlib.Order.Lattice
import Mathlib.Algebra.Star.Basic
import Verif.Model.Vector

/-!
# Reductions and comparison of vectors at storage level

Models parts of `include/Mathter/Vector/Math.hpp` and `Comparison.hpp`.
-/

namespace Mathter

universe u
variable {K : Type u}

/-- The order in which a reduction (`xsimd::reduce_add/min/max`, `std::reduce`) combines the lanes: a binary tree with
lane numbers at the leaves. Neither xsimd nor `std::reduce` promises a particular tree. (used for Vector/Math.hpp:52, 66, 149, 152.) -/
inductive RTree (n : ℕ) where
  | leaf (i : Fin n)
  | node (l r : RTree n)

namespace RTree
variable {n : ℕ}

/-- Lanes combined, left to right. (used for Vector/Math.hpp:52, 66, 149, 152.) -/
def leaves : RTree n → List (Fin n)
  | .leaf i => [i]
  | .node l r => l.leaves ++ r.leaves

/-- A reduction tree over all lanes: each lane occurs exactly once (in any order). (used for Vector/Math.hpp:52, 66, 149, 152.) -/
def Valid (t : RTree n) : Prop := t.leaves.Perm (List.finRange n)

/-- Value of the reduction of the lanes `b` with the operation `op`. (used for Vector/Math.hpp:52, 66, 149, 152.) -/
def eval (op : K → K → K) (b : Fin n → K) : RTree n → K
  | .leaf i => b i
  | .node l r => op (l.eval op b) (r.eval op b)

end RTree

namespace Vec
variable {c : Cfg} {dim : ℕ} {p p1 p2 : Bool}

/-- `Sum` — Vector/Math.hpp:142-153. `tb`/`ts` are the reduction orders of the batched and of the scalar path. -/
def sum [AddCommMonoid K] (tb : RTree (batchSize dim false)) (ts : RTree dim) (v : Vec c K dim p) : K :=
  if h : isBatched c dim p = true then tb.eval (· + ·) (fillMasked dim (v.load h) 0)
  else ts.eval (· + ·) v.get

/-- `Min(v)` — Vector/Math.hpp:45-56. -/
def minElem [LinearOrder K] (tb : RTree (batchSize dim false)) (ts : RTree dim) (v : Vec c K dim p) : K :=
  if h : isBatched c dim p = true then tb.eval min (fillMaskedWithFirst dim (v.load h))
  else ts.eval min v.get

/-- `Max(v)` — Vector/Math.hpp:59-70. -/
def maxElem [LinearOrder K] (tb : RTree (batchSize dim false)) (ts : RTree dim) (v : Vec c K dim p) : K :=
  if h : isBatched c dim p = true then tb.eval max (fillMaskedWithFirst dim (v.load h))
  else ts.eval max v.get

/-- `Min(lhs, rhs)` — Vector/Math.hpp:31-35. -/
def minVec [LinearOrder K] [Zero K] (conv : Bool) (a : Vec c K dim p1) (b : Vec c K dim p2) : Vec c K dim (p1 && p2) :=
  doBinary conv min a b

/-- `Max(lhs, rhs)` — Vector/Math.hpp:38-42. -/
def maxVec [LinearOrder K] [Zero K] (conv : Bool) (a : Vec c K dim p1) (b : Vec c K dim p2) : Vec c K dim (p1 && p2) :=
  doBinary conv max a b

/-- `Clamp(arg, lower, upper)` — Vector/Math.hpp:73-78. (`p && p` is `p`; the result type is restated by a cast in C++.) -/
def clamp [LinearOrder K] [Zero K] (conv : Bool) (v : Vec c K dim p) (lower upper : K) : Vec c K dim ((p && p) && p) :=
  minVec conv (maxVec conv v (fill lower : Vec c K dim p)) (fill upper : Vec c K dim p)

/-- `Saturate` — Vector/Math.hpp:81-85. -/
def saturate [LinearOrder K] [Zero K] [One K] (conv : Bool) (v : Vec c K dim p) : Vec c K dim ((p && p) && p) :=
  clamp conv v 0 1

/-- `Conj(v)` — Vector/Math.hpp:128-132 with `conj` (Common/Functional.hpp:272-306). -/
def conj [Zero K] [Star K] (conv : Bool) (v : Vec c K dim p) : Vec c K dim p := doUnary conv star v

/-- `Dot(lhs, rhs) = Sum(lhs * Conj(rhs))` — Vector/Math.hpp:176-180. -/
def dot [NonUnitalNonAssocSemiring K] [Star K] (conv : Bool) (tb : RTree (batchSize dim false)) (ts : RTree dim)
    (a : Vec c K dim p1) (b : Vec c K dim p2) : K :=
  sum tb ts (mul conv a (conj conv b))

/-- `operator==(Vector, Vector)` — Vector/Comparison.hpp:22-25: `std::equal` over `[begin, begin + Dim)`
(Vector.hpp:400-440). -/
def eq [BEq K] (a : Vec c K dim p1) (b : Vec c K dim p2) : Bool :=
  (List.finRange dim).all fun i => a.get i == b.get i

/-- `operator!=` — Vector/Comparison.hpp:29-32. -/
def ne [BEq K] (a : Vec c K dim p1) (b : Vec c K dim p2) : Bool := !(eq a b)

end Vec
end Mathter
