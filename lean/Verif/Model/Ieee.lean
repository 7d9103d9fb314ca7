import Verif.Model.VectorReduce
import Mathlib.Analysis.SpecialFunctions.Pow.NNReal

/-!
# Vector functions on floating-point values with infinities and NaN

Models the reductions, lengths, `Min`, `Max`, `Clamp` and the compensated sum of `include/Mathter/Vector/Math.hpp`, and the scalar `Clamp` and `Saturate`
of `include/Mathter/Utility.hpp`, for real floating-point element types with all their values. The sign of a zero is not part of the model: a zero
divisor counts as positive (the only divisors below that can be zero are absolute values and lengths).
-/

namespace Mathter

/-- A floating-point value: NaN, an infinity (`inf true` is `-∞`), or a number. (the scalar type `T` of Vector/Math.hpp:31-260.) -/
inductive Fx where
  | nan
  | inf (neg : Bool)
  | fin (x : ℝ)

noncomputable instance : Zero Fx := ⟨.fin 0⟩

namespace Fx

/-- `a + b`; `fl` rounds and may return an infinity. (the operator of `T` in Vector/Math.hpp:142-172.) -/
noncomputable def add (fl : ℝ → Fx) : Fx → Fx → Fx
  | .nan, _ => .nan
  | _, .nan => .nan
  | .inf s, .inf t => if s = t then .inf s else .nan
  | .inf s, .fin _ => .inf s
  | .fin _, .inf t => .inf t
  | .fin x, .fin y => fl (x + y)

/-- `-a`. (used by the subtractions in Vector/Math.hpp:155-172, Common/MathUtil.hpp:17-22.) -/
noncomputable def neg : Fx → Fx
  | .nan => .nan
  | .inf s => .inf !s
  | .fin x => .fin (-x)

/-- `a - b`, which is `a + (-b)`. (the operator of `T` in Vector/Math.hpp:163-166, Common/MathUtil.hpp:17-22.) -/
noncomputable def sub (fl : ℝ → Fx) (a b : Fx) : Fx := add fl a b.neg

/-- `a * b`. (the operator of `T` in Vector/Math.hpp:176-213.) -/
noncomputable def mul (fl : ℝ → Fx) : Fx → Fx → Fx
  | .nan, _ => .nan
  | _, .nan => .nan
  | .inf s, .inf t => .inf (s != t)
  | .inf s, .fin y => if y = 0 then .nan else .inf (s != decide (y < 0))
  | .fin x, .inf t => if x = 0 then .nan else .inf (decide (x < 0) != t)
  | .fin x, .fin y => fl (x * y)

/-- `a / b`. (the operator of `T` in Vector/Math.hpp:206-251.) -/
noncomputable def div (fl : ℝ → Fx) : Fx → Fx → Fx
  | .nan, _ => .nan
  | _, .nan => .nan
  | .inf _, .inf _ => .nan
  | .inf s, .fin y => .inf (s != decide (y < 0))
  | .fin _, .inf _ => .fin 0
  | .fin x, .fin y => if y = 0 then (if x = 0 then .nan else .inf (decide (x < 0))) else fl (x / y)

/-- `std::sqrt(a)`. (used in Vector/Math.hpp:200.) -/
noncomputable def sqrt (fl : ℝ → Fx) : Fx → Fx
  | .nan => .nan
  | .inf s => if s then .nan else .inf false
  | .fin x => if x < 0 then .nan else fl (Real.sqrt x)

/-- `std::abs(a)`. (used in Vector/Math.hpp:108-111, 162.) -/
noncomputable def abs : Fx → Fx
  | .nan => .nan
  | .inf _ => .inf false
  | .fin x => .fin |x|

/-- `a < b`: false if one is NaN. (the comparison of `T` in Vector/Math.hpp:31-70, 162, 210.) -/
noncomputable def lt : Fx → Fx → Bool
  | .nan, _ => false
  | _, .nan => false
  | .inf s, .inf t => s && !t
  | .inf s, .fin _ => s
  | .fin _, .inf t => !t
  | .fin x, .fin y => decide (x < y)

/-- `a == b`: false if one is NaN. (the comparison of `T` in Vector/Comparison.hpp:22-25.) -/
noncomputable instance : BEq Fx := ⟨fun a b =>
  match a, b with
  | .inf s, .inf t => s == t
  | .fin x, .fin y => decide (x = y)
  | _, _ => false⟩

/-- `std::isfinite(a)`. (used in Vector/Math.hpp:250.) -/
def isFinite : Fx → Bool
  | .fin _ => true
  | _ => false

/-- `std::max(lhs, rhs)`, which is `lhs < rhs ? rhs : lhs` — Common/Functional.hpp:123-128. -/
noncomputable def stdMax (a b : Fx) : Fx := if lt a b then b else a

/-- `std::min(lhs, rhs)`, which is `rhs < lhs ? rhs : lhs` — Common/Functional.hpp:152-157. -/
noncomputable def stdMin (a b : Fx) : Fx := if lt b a then b else a

/-- `std::clamp(x, lo, hi)`; no defined behaviour for `hi < lo`. (used in Vector/Math.hpp:210, Utility.hpp:55-58.) -/
noncomputable def stdClamp (x lo hi : Fx) : Option Fx := if lt hi lo then none else some (if lt x lo then lo else if lt hi x then hi else x)

/-- `Saturate(arg)` — Utility.hpp:61-64. -/
noncomputable def saturate (x : Fx) : Option Fx := stdClamp x (.fin 0) (.fin 1)

end Fx

namespace Ie
variable {c : Cfg} {dim : ℕ} {p p1 p2 : Bool}

/-- `DoBinaryOp` with the functors `min{}`, `max{}` — Vector/OperationUtil.hpp:124-142, whose batch version `fb` (`xsimd::max`, `xsimd::min`;
Common/Functional.hpp:130-137, 159-166) is another function than the scalar version `fs`. -/
def binary (fb fs : Fx → Fx → Fx) [Zero Fx] (conv : Bool) (a : Vec c Fx dim p1) (b : Vec c Fx dim p2) : Vec c Fx dim (p1 && p2) :=
  if h : isBatched c dim p1 = true ∧ isBatched c dim p2 = true ∧ isBatched c dim (p1 && p2) = true ∧ conv = true then
    Vec.store h.2.2.1 fun l => fb (a.load h.1 l) (b.load h.2.1 l)
  else Vec.ofFn fun i => fs (a.get i) (b.get i)

/-- `Min(lhs, rhs)` — Vector/Math.hpp:31-35, Common/Functional.hpp:151-178; `bmin` is `xsimd::min` on one lane. -/
noncomputable def minVec (bmin : Fx → Fx → Fx) (conv : Bool) (a : Vec c Fx dim p1) (b : Vec c Fx dim p2) : Vec c Fx dim (p1 && p2) :=
  binary bmin Fx.stdMin conv a b

/-- `Max(lhs, rhs)` — Vector/Math.hpp:38-42, Common/Functional.hpp:122-149; `bmax` is `xsimd::max` on one lane. -/
noncomputable def maxVec (bmax : Fx → Fx → Fx) (conv : Bool) (a : Vec c Fx dim p1) (b : Vec c Fx dim p2) : Vec c Fx dim (p1 && p2) :=
  binary bmax Fx.stdMax conv a b

/-- `Clamp(arg, lower, upper)` — Vector/Math.hpp:73-78. -/
noncomputable def clamp (bmin bmax : Fx → Fx → Fx) (conv : Bool) (v : Vec c Fx dim p) (lower upper : Fx) : Vec c Fx dim ((p && p) && p) :=
  minVec bmin conv (maxVec bmax conv v (Vec.fill lower : Vec c Fx dim p)) (Vec.fill upper : Vec c Fx dim p)

/-- `*std::max_element(first, last)` of a non-empty range: the current largest is replaced when it is less. (Vector/Math.hpp:69.) -/
noncomputable def maxElement {n : ℕ} (a : Fin (n + 1) → Fx) : Fx := a (forUp (n + 1) 1 (fun i largest => if Fx.lt (a largest) (a i) then i else largest) 0)

/-- `*std::min_element(first, last)` of a non-empty range. (Vector/Math.hpp:55.) -/
noncomputable def minElement {n : ℕ} (a : Fin (n + 1) → Fx) : Fx := a (forUp (n + 1) 1 (fun i smallest => if Fx.lt (a i) (a smallest) then i else smallest) 0)

/-- `Max(v)` — Vector/Math.hpp:59-70. -/
noncomputable def maxElem (bmax : Fx → Fx → Fx) (tb : RTree (batchSize (dim + 1) false)) (v : Vec c Fx (dim + 1) p) : Fx :=
  if h : isBatched c (dim + 1) p = true then tb.eval bmax (Vec.fillMaskedWithFirst (dim + 1) (v.load h))
  else maxElement v.get

/-- `Min(v)` — Vector/Math.hpp:45-56. -/
noncomputable def minElem (bmin : Fx → Fx → Fx) (tb : RTree (batchSize (dim + 1) false)) (v : Vec c Fx (dim + 1) p) : Fx :=
  if h : isBatched c (dim + 1) p = true then tb.eval bmin (Vec.fillMaskedWithFirst (dim + 1) (v.load h))
  else minElement v.get

/-- `Sum(v)` — Vector/Math.hpp:142-153; `std::reduce` starts from `T{}`, the last leaf of `ts`. -/
noncomputable def sum (fl : ℝ → Fx) (tb : RTree (batchSize dim false)) (ts : RTree (dim + 1)) (v : Vec c Fx dim p) : Fx :=
  if h : isBatched c dim p = true then tb.eval (Fx.add fl) (Vec.fillMasked dim (v.load h) (.fin 0))
  else ts.eval (Fx.add fl) (fun i => if h : i.val < dim then v.get ⟨i.val, h⟩ else .fin 0)

/-- `Dot(lhs, rhs)` — Vector/Math.hpp:176-180; `Conj` does nothing here. -/
noncomputable def dot (fl : ℝ → Fx) (conv : Bool) (tb : RTree (batchSize dim false)) (ts : RTree (dim + 1)) (a : Vec c Fx dim p1) (b : Vec c Fx dim p2) : Fx :=
  sum fl tb ts (Vec.doBinary conv (Fx.mul fl) a b : Vec c Fx dim (p1 && p2))

/-- `Length(v)` — Vector/Math.hpp:190-201. -/
noncomputable def length (fl : ℝ → Fx) (conv : Bool) (tb : RTree (batchSize dim false)) (ts : RTree (dim + 1)) (v : Vec c Fx dim p) : Fx :=
  Fx.sqrt fl (dot fl conv tb ts v v)

/-- `v / s` — Vector/Arithmetic.hpp:58-63, 144. -/
noncomputable def divScalar (fl : ℝ → Fx) (conv : Bool) (v : Vec c Fx dim p) (s : Fx) : Vec c Fx dim (p && p) :=
  Vec.doBinary conv (Fx.div fl) v (Vec.fill s : Vec c Fx dim p)

/-- `Distance(lhs, rhs)` — Vector/Math.hpp:216-220. -/
noncomputable def distance (fl : ℝ → Fx) (conv : Bool) (tb : RTree (batchSize dim false)) (ts : RTree (dim + 1)) (a : Vec c Fx dim p1) (b : Vec c Fx dim p2) : Fx :=
  length fl conv tb ts (Vec.doBinary conv (Fx.sub fl) a b : Vec c Fx dim (p1 && p2))

/-- `ScaleElements(v)` of a real vector — Vector/Math.hpp:91-104, 108-111. -/
noncomputable def scaleElements (bmax : Fx → Fx → Fx) (conv : Bool) (tm : RTree (batchSize (dim + 1) false)) (v : Vec c Fx (dim + 1) p) : Fx :=
  maxElem bmax tm (Vec.doUnary conv Fx.abs v : Vec c Fx (dim + 1) p)

/-- `LengthPrecise(v)` — Vector/Math.hpp:206-213; `tiny` and `Ω` are the smallest positive normal and the largest finite number. -/
noncomputable def lengthPrecise (fl : ℝ → Fx) (tiny Ω : ℝ) (bmax : Fx → Fx → Fx) (conv : Bool) (tm : RTree (batchSize (dim + 1) false))
    (tb : RTree (batchSize (dim + 1) false)) (ts : RTree (dim + 1 + 1)) (v : Vec c Fx (dim + 1) p) : Option Fx :=
  (Fx.stdClamp (scaleElements bmax conv tm v) (.fin tiny) (.fin Ω)).map fun scale =>
    Fx.mul fl (length fl conv tb ts (divScalar fl conv v scale)) scale

/-- `Normalize(v)` — Vector/Math.hpp:232-238; `none` is the failed assertion `length != 0`. -/
noncomputable def normalize (fl : ℝ → Fx) (conv : Bool) (tb : RTree (batchSize dim false)) (ts : RTree (dim + 1)) (v : Vec c Fx dim p) :
    Option (Vec c Fx dim (p && p)) :=
  let length := length fl conv tb ts v
  if length == .fin 0 then none else some (divScalar fl conv v length)

/-- `NormalizePrecise(v, degenerate)` — Vector/Math.hpp:244-251, element by element. -/
noncomputable def normalizePrecise (fl : ℝ → Fx) (bmax : Fx → Fx → Fx) (conv : Bool) (tm : RTree (batchSize (dim + 1) false))
    (tb : RTree (batchSize (dim + 1) false)) (ts : RTree (dim + 1 + 1)) (v degenerate : Vec c Fx (dim + 1) p) : Fin (dim + 1) → Fx :=
  let scale := scaleElements bmax conv tm v
  let scaled := divScalar fl conv v scale
  let length := length fl conv tb ts scaled
  if length.isFinite && !(length == .fin 0) then (divScalar fl conv scaled length).get else degenerate.get

/-- `Fast2Sum(a, b)` — Common/MathUtil.hpp:17-22. -/
noncomputable def fast2Sum (fl : ℝ → Fx) (a b : Fx) : Fx × Fx :=
  let s := Fx.add fl a b
  let z := Fx.sub fl s a
  let c := Fx.sub fl b z
  (s, c)

/-- One pass of the loop of `SumCompensated` — Vector/Math.hpp:160-169; the state is `(sum, compensation)`. -/
noncomputable def compStep (fl : ℝ → Fx) (element : Fx) (s : Fx × Fx) : Fx × Fx :=
  let t := Fx.add fl s.1 element
  if Fx.lt element.abs s.1.abs then (t, Fx.add fl s.2 (Fx.add fl (Fx.sub fl s.1 t) element))
  else (t, Fx.add fl s.2 (Fx.add fl (Fx.sub fl element t) s.1))

/-- `SumCompensated(v)` — Vector/Math.hpp:157-172. -/
noncomputable def sumCompensated (fl : ℝ → Fx) (v : Vec c Fx dim p) : Fx × Fx :=
  let s := forUp dim 0 (fun i s => compStep fl (v.get i) s) (.fin 0, .fin 0)
  fast2Sum fl s.1 s.2

end Ie
end Mathter
