import Verif.Model.VectorReduce
import Mathlib.Analysis.SpecialFunctions.Pow.NNReal

/-!
# `Length`, `LengthPrecise` and `NormalizePrecise` in a format with overflow and underflow

Models `include/Mathter/Vector/Math.hpp` for real floating-point element types. `fl` rounds a real number to the format; it returns `none` for a result
that is not finite (overflow). Every operation whose operand is not finite returns `none`: infinities and NaNs are not told apart.
-/

namespace Mathter

/-- A computed floating-point number; `none` if it is an infinity or a NaN. (the scalar type `T` of Vector/Math.hpp:190-251.) -/
abbrev FR := Option ℝ

noncomputable instance : Zero FR := ⟨some (0 : ℝ)⟩

namespace Rg
variable {c : Cfg} {dim : ℕ} {p p1 p2 : Bool}

/-- A rounded binary operation. (the operators of `T` in Vector/Math.hpp:190-251.) -/
def op (fl : ℝ → Option ℝ) (f : ℝ → ℝ → ℝ) (x y : FR) : FR := Option.bind x fun a => Option.bind y fun b => fl (f a b)

/-- A rounded division; division by zero gives an infinity or a NaN. (used in Vector/Math.hpp:206-251.) -/
noncomputable def divOp (fl : ℝ → Option ℝ) (x y : FR) : FR := Option.bind x fun a => Option.bind y fun b => if b = 0 then none else fl (a / b)

/-- The division of a vector by a scalar — Vector/Arithmetic.hpp:58-63, 156 (`divides_safe` of floats divides every lane; the padding of the result is
not used below). -/
noncomputable def divScalar (fl : ℝ → Option ℝ) (conv : Bool) (v : Vec c FR dim p) (s : FR) : Vec c FR dim (p && p) :=
  Vec.doBinary conv (divOp fl) v (Vec.fill s : Vec c FR dim p)

/-- `Sum` — Vector/Math.hpp:142-153; see `Fl.sum`. -/
noncomputable def sum (fl : ℝ → Option ℝ) (tb : RTree (batchSize dim false)) (ts : RTree (dim + 1)) (v : Vec c FR dim p) : FR :=
  if h : isBatched c dim p = true then tb.eval (op fl (· + ·)) (Vec.fillMasked dim (v.load h) 0)
  else ts.eval (op fl (· + ·)) (fun i => if h : i.val < dim then v.get ⟨i.val, h⟩ else 0)

/-- `LengthSquared` with `Dot` — Vector/Math.hpp:176-180, 190-194. -/
noncomputable def lengthSquared (fl : ℝ → Option ℝ) (conv : Bool) (tb : RTree (batchSize dim false)) (ts : RTree (dim + 1)) (v : Vec c FR dim p) : FR :=
  sum fl tb ts (Vec.doBinary conv (op fl (· * ·)) v v : Vec c FR dim (p && p))

/-- `Length` — Vector/Math.hpp:197-201, with a correctly rounded `std::sqrt`. -/
noncomputable def length (fl : ℝ → Option ℝ) (conv : Bool) (tb : RTree (batchSize dim false)) (ts : RTree (dim + 1)) (v : Vec c FR dim p) : FR :=
  Option.bind (lengthSquared fl conv tb ts v) fun q => fl (Real.sqrt q)

/-- `ScaleElements` of a vector of finite numbers — Vector/Math.hpp:91-104, 108-111, 59-70. Absolute values and maxima are exact. -/
noncomputable def scaleElements (conv : Bool) (tb : RTree (batchSize dim false)) (ts : RTree dim) (v : Vec c ℝ dim p) : ℝ :=
  Vec.maxElem tb ts (Vec.doUnary conv (fun x => |x|) v : Vec c ℝ dim p)

/-- The vector of finite numbers `v` as operand. (the argument of Vector/Math.hpp:206-251.) -/
noncomputable def lift (v : Vec c ℝ dim p) : Vec c FR dim p := ⟨fun l => some (v.lanes l)⟩

/-- `LengthPrecise` of a vector of finite numbers — Vector/Math.hpp:206-213. `tiny` and `Ω` are the smallest positive normal and the largest finite
number (`numeric_limits<T>::min()`, `max()`). -/
noncomputable def lengthPrecise (fl : ℝ → Option ℝ) (tiny Ω : ℝ) (conv : Bool) (tm : RTree (batchSize dim false)) (tms : RTree dim)
    (tb : RTree (batchSize dim false)) (ts : RTree (dim + 1)) (v : Vec c ℝ dim p) : FR :=
  let s := scaleElements conv tm tms v
  let scale := if s < tiny then tiny else if Ω < s then Ω else s
  op fl (· * ·) (length fl conv tb ts (divScalar fl conv (lift v) (some scale))) (some scale)

/-- `NormalizePrecise(v, degenerate)` of a vector of finite numbers — Vector/Math.hpp:245-251. -/
noncomputable def normalizePrecise (fl : ℝ → Option ℝ) (conv : Bool) (tm : RTree (batchSize dim false)) (tms : RTree dim)
    (tb : RTree (batchSize dim false)) (ts : RTree (dim + 1)) (v : Vec c ℝ dim p) (degenerate : Vec c ℝ dim p) : Vec c FR dim (p && p && (p && p)) :=
  let scale := scaleElements conv tm tms v
  let scaled := divScalar fl conv (lift v) (some scale)
  match length fl conv tb ts scaled with
  | none => Vec.ofFn fun i => some (degenerate.get i)
  | some len => if len ≠ 0 then divScalar fl conv scaled (some len) else Vec.ofFn fun i => some (degenerate.get i)

end Rg
end Mathter
