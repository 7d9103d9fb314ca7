import Verif.Model.Fma
import Verif.Model.VectorReduce
import Mathlib.Analysis.SpecialFunctions.Pow.NNReal

/-!
# Rounded evaluation of sums, dot products and lengths

The floating-point operations of `Sum`, `Dot`, `LengthSquared`, `Length` and `Distance` (`include/Mathter/Vector/Math.hpp`) with a rounding `fl` after
every operation, for real element types (`Conj` and `std::real` are then identities). `fl` has no overflow or underflow.
-/

namespace Mathter.Fl
variable {c : Cfg} {dim : ℕ} {p p1 p2 : Bool}

/-- `Sum` — Vector/Math.hpp:142-153. The batched path fills the padding with zeros and reduces the register in the order `tb`; the scalar path is
`std::reduce(begin, end)`, which combines the elements and the initial value `T{}` (here the last lane) in an unspecified order `ts`. -/
noncomputable def sum (fl : ℝ → ℝ) (tb : RTree (batchSize dim false)) (ts : RTree (dim + 1)) (v : Vec c ℝ dim p) : ℝ :=
  if h : isBatched c dim p = true then tb.eval (fun x y => fl (x + y)) (Vec.fillMasked dim (v.load h) 0)
  else ts.eval (fun x y => fl (x + y)) (fun i => if h : i.val < dim then v.get ⟨i.val, h⟩ else 0)

/-- `operator-(Vector, Vector)` of floats — Vector/Arithmetic.hpp:51-55, 141. -/
noncomputable def sub (fl : ℝ → ℝ) (conv : Bool) (a : Vec c ℝ dim p1) (b : Vec c ℝ dim p2) : Vec c ℝ dim (p1 && p2) :=
  Vec.doBinary conv (fun x y => fl (x - y)) a b

/-- `Dot` — Vector/Math.hpp:176-180. -/
noncomputable def dot (fl : ℝ → ℝ) (conv : Bool) (tb : RTree (batchSize dim false)) (ts : RTree (dim + 1)) (a : Vec c ℝ dim p1) (b : Vec c ℝ dim p2) : ℝ :=
  sum fl tb ts (mul fl conv a b)

/-- `LengthSquared` — Vector/Math.hpp:190-194. -/
noncomputable def lengthSquared (fl : ℝ → ℝ) (conv : Bool) (tb : RTree (batchSize dim false)) (ts : RTree (dim + 1)) (v : Vec c ℝ dim p) : ℝ :=
  dot fl conv tb ts v v

/-- `Length` — Vector/Math.hpp:197-201, with a correctly rounded `std::sqrt`. -/
noncomputable def length (fl : ℝ → ℝ) (conv : Bool) (tb : RTree (batchSize dim false)) (ts : RTree (dim + 1)) (v : Vec c ℝ dim p) : ℝ :=
  fl (Real.sqrt (lengthSquared fl conv tb ts v))

/-- `Distance` — Vector/Math.hpp:216-220. -/
noncomputable def distance (fl : ℝ → ℝ) (conv : Bool) (tb : RTree (batchSize dim false)) (ts : RTree (dim + 1)) (a : Vec c ℝ dim p1) (b : Vec c ℝ dim p2) : ℝ :=
  length fl conv tb ts (sub fl conv a b)

end Mathter.Fl
