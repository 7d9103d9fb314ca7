import Verif.Model.RangeReduce
import Verif.Model.Elementwise

/-!
# `NormPrecise` of matrices in a format with overflow and underflow

Models `include/Mathter/Matrix/Math.hpp:126-151` for real and complex floating-point element types. As in `Model/RangeReduce.lean`, `fl` rounds a real
number to the format and returns `none` for a result that is not finite. The vectors and matrices with the suffix 0 and `jr`, `jc` are uninitialised
storage.
-/

namespace Mathter.Rg
variable {c cR : Cfg} {r n : ℕ} {o : Order} {L : Layout} {p : Bool}

/-- The matrix of finite numbers `m` as operand. (the argument of Matrix/Math.hpp:126-151.) -/
noncomputable def liftMat (m : Mat c ℝ r n o L p) : Mat c FR r n o L p := ⟨fun s => lift (m.stripes s)⟩

/-- `Sum(m)` — Matrix/Math.hpp:54-61: the accumulator starts at 0, and the sum of each stripe is added to it. -/
noncomputable def matSum (fl : ℝ → Option ℝ) (tb : RTree (batchSize (stripeDim L r n) false)) (ts : RTree (stripeDim L r n + 1)) (m : Mat c FR r n o L p) : FR :=
  forUp (stripeCount L r n) 0 (fun s acc => op fl (· + ·) acc (sum fl tb ts (m.stripes s))) (some 0)

/-- `m / x` — Matrix/Arithmetic.hpp:101-116, 271. -/
noncomputable def matDivScalar (fl : ℝ → Option ℝ) (conv : Bool) (m0 : Mat c FR r n o L (p && p)) (m : Mat c FR r n o L p) (x : FR) :
    Mat c FR r n o L (p && p) :=
  Mat.mapStripes (fun v => divScalar fl conv v x) m0 m

/-- `Hadamard(m, m)` — Matrix/Arithmetic.hpp:78-98, 229. -/
noncomputable def matSquare (fl : ℝ → Option ℝ) (conv : Bool) (jr : Vec c FR n p) (jc : Vec c FR r p) (m0 : Mat c FR r n o L (p && p)) (m : Mat c FR r n o L p) :
    Mat c FR r n o L (p && p) :=
  Mat.elementwise (fun v w => Vec.doBinary conv (op fl (· * ·)) v w) jr jc m0 m m

/-- `a + b` — Matrix/Arithmetic.hpp:78-98, 226. -/
noncomputable def matAdd (fl : ℝ → Option ℝ) (conv : Bool) (jr : Vec c FR n p) (jc : Vec c FR r p) (m0 : Mat c FR r n o L (p && p))
    (a b : Mat c FR r n o L p) : Mat c FR r n o L (p && p) :=
  Mat.elementwise (fun v w => Vec.doBinary conv (op fl (· + ·)) v w) jr jc m0 a b

variable [NeZero (stripeCount L r n)]

/-- `NormPrecise` of a real matrix of finite numbers — Matrix/Math.hpp:140-149 (`Real`, `Abs` and `Max` are exact, `std::sqrt` is correctly rounded). -/
noncomputable def normPreciseReal (fl : ℝ → Option ℝ) (conv : Bool) (tm : RTree (batchSize (stripeDim L r n) false)) (tms : RTree (stripeDim L r n))
    (tb : RTree (batchSize (stripeDim L r n) false)) (ts : RTree (stripeDim L r n + 1)) (a0 b0 : Mat c ℝ r n o L p) (d0 : Mat c FR r n o L (p && p))
    (q0 : Mat c FR r n o L ((p && p) && (p && p))) (jr : Vec c FR n (p && p)) (jc : Vec c FR r (p && p)) (m : Mat c ℝ r n o L p) : FR :=
  let re := Mat.abs conv a0 (Mat.real conv b0 m)
  let maxElement := Mat.maxElem tm tms re
  if maxElement = 0 then some 0
  else
    let reScaled := matDivScalar fl conv d0 (liftMat re) (some maxElement)
    let sq := matSquare fl conv jr jc q0 reScaled
    op fl (· * ·) (Option.bind (matSum fl tb ts sq) fun q => fl (Real.sqrt q)) (some maxElement)

/-- `NormPrecise` of a complex matrix of finite numbers — Matrix/Math.hpp:128-139. `convC` is about the conversion of complex to real batches. -/
noncomputable def normPreciseComplex (fl : ℝ → Option ℝ) (conv convC : Bool) (tm : RTree (batchSize (stripeDim L r n) false))
    (tms : RTree (stripeDim L r n)) (tb : RTree (batchSize (stripeDim L r n) false)) (ts : RTree (stripeDim L r n + 1))
    (a0 b0 a1 b1 : Mat cR ℝ r n o L p) (d0 d1 : Mat cR FR r n o L (p && p)) (q0 q1 : Mat cR FR r n o L ((p && p) && (p && p)))
    (s0 : Mat cR FR r n o L (((p && p) && (p && p)) && ((p && p) && (p && p)))) (jr jr1 : Vec cR FR n (p && p)) (jc jc1 : Vec cR FR r (p && p))
    (jr2 : Vec cR FR n ((p && p) && (p && p))) (jc2 : Vec cR FR r ((p && p) && (p && p))) (m : Mat c ℂ r n o L p) : FR :=
  let re := Mat.abs conv a0 (Mat.real convC b0 m : Mat cR ℝ r n o L p)
  let im := Mat.abs conv a1 (Mat.imag convC b1 m : Mat cR ℝ r n o L p)
  let maxElement := max (Mat.maxElem tm tms re) (Mat.maxElem tm tms im)
  if maxElement = 0 then some 0
  else
    let reScaled := matDivScalar fl conv d0 (liftMat re) (some maxElement)
    let imScaled := matDivScalar fl conv d1 (liftMat im) (some maxElement)
    let sq := matAdd fl conv jr2 jc2 s0 (matSquare fl conv jr jc q0 reScaled) (matSquare fl conv jr1 jc1 q1 imScaled)
    op fl (· * ·) (Option.bind (matSum fl tb ts sq) fun q => fl (Real.sqrt q)) (some maxElement)

end Mathter.Rg
