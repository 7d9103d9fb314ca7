import Verif.Model.RoundedComplex
import Verif.Model.Elementwise

/-!
# Rounded evaluation of `Sum`, `Trace`, `NormSquared` and `Norm` of matrices

`include/Mathter/Matrix/Math.hpp` with a rounding `fl` after every operation, for real and complex element types, without overflow or underflow. The vectors and
matrices with the suffix 0, 1 or 2 and `jr`, `jc` are uninitialised storage.
-/

namespace Mathter.Fl
variable {c cR : Cfg} {r n : ℕ} {o : Order} {L : Layout} {p : Bool}

/-- `Sum(m)` of a real matrix — Matrix/Math.hpp:54-61. -/
noncomputable def matSum (fl : ℝ → ℝ) (tb : RTree (batchSize (stripeDim L r n) false)) (ts : RTree (stripeDim L r n + 1)) (m : Mat c ℝ r n o L p) : ℝ :=
  forUp (stripeCount L r n) 0 (fun s acc => fl (acc + sum fl tb ts (m.stripes s))) 0

/-- `Sum(m)` of a complex matrix — Matrix/Math.hpp:54-61. -/
noncomputable def matSumC (fl : ℝ → ℝ) (tb : RTree (batchSize (stripeDim L r n) false)) (ts : RTree (stripeDim L r n + 1)) (m : Mat c ℂ r n o L p) : ℂ :=
  forUp (stripeCount L r n) 0 (fun s acc => flC fl (acc + sumC fl tb ts (m.stripes s))) 0

/-- `Trace(m)` of a real matrix — Matrix/Math.hpp:155-162. -/
noncomputable def trace (fl : ℝ → ℝ) (tb : RTree (batchSize n false)) (ts : RTree (n + 1)) (v0 : Vec c ℝ n p) (m : Mat c ℝ n n o L p) : ℝ :=
  sum fl tb ts (forUp n 0 (fun i v => v.set i (m.get i i)) v0)

/-- `Trace(m)` of a complex matrix — Matrix/Math.hpp:155-162. -/
noncomputable def traceC (fl : ℝ → ℝ) (tb : RTree (batchSize n false)) (ts : RTree (n + 1)) (v0 : Vec c ℂ n p) (m : Mat c ℂ n n o L p) : ℂ :=
  sumC fl tb ts (forUp n 0 (fun i v => v.set i (m.get i i)) v0)

/-- `NormSquared(m)` of a real matrix — Matrix/Math.hpp:113-116. -/
noncomputable def matNormSquared (fl : ℝ → ℝ) (conv : Bool) (tb : RTree (batchSize (stripeDim L r n) false)) (ts : RTree (stripeDim L r n + 1)) (jr : Vec c ℝ n p)
    (jc : Vec c ℝ r p) (m0 : Mat c ℝ r n o L p) (m1 m2 : Mat c ℝ r n o L (p && p)) (m : Mat c ℝ r n o L p) : ℝ :=
  matSum fl tb ts (Mat.real conv m2 (Mat.elementwise (fun v w => Vec.doBinary conv (fun x y => fl (x * y)) v w) jr jc m1 m (Mat.conj conv m0 m)) : Mat c ℝ r n o L (p && p))

/-- `NormSquared(m)` of a complex matrix — Matrix/Math.hpp:113-116. `convC` is about the conversion of complex to real batches. -/
noncomputable def matNormSquaredC (fl : ℝ → ℝ) (ps pd : ℝ → ℝ → ℝ → ℝ → ℝ) (conv convC : Bool) (tb : RTree (batchSize (stripeDim L r n) false))
    (ts : RTree (stripeDim L r n + 1)) (jr : Vec c ℂ n p) (jc : Vec c ℂ r p) (m0 : Mat c ℂ r n o L p) (m1 : Mat c ℂ r n o L (p && p))
    (m2 : Mat cR ℝ r n o L (p && p)) (m : Mat c ℂ r n o L p) : ℝ :=
  matSum fl tb ts (Mat.real convC m2 (Mat.elementwise (fun v w => Vec.doBinary conv (prodC ps pd) v w) jr jc m1 m (Mat.conj conv m0 m)) : Mat cR ℝ r n o L (p && p))

/-- `Norm(m)` of a real matrix — Matrix/Math.hpp:120-123. -/
noncomputable def matNorm (fl : ℝ → ℝ) (conv : Bool) (tb : RTree (batchSize (stripeDim L r n) false)) (ts : RTree (stripeDim L r n + 1)) (jr : Vec c ℝ n p)
    (jc : Vec c ℝ r p) (m0 : Mat c ℝ r n o L p) (m1 m2 : Mat c ℝ r n o L (p && p)) (m : Mat c ℝ r n o L p) : ℝ :=
  fl (Real.sqrt (matNormSquared fl conv tb ts jr jc m0 m1 m2 m))

/-- `Norm(m)` of a complex matrix — Matrix/Math.hpp:120-123. -/
noncomputable def matNormC (fl : ℝ → ℝ) (ps pd : ℝ → ℝ → ℝ → ℝ → ℝ) (conv convC : Bool) (tb : RTree (batchSize (stripeDim L r n) false))
    (ts : RTree (stripeDim L r n + 1)) (jr : Vec c ℂ n p) (jc : Vec c ℂ r p) (m0 : Mat c ℂ r n o L p) (m1 : Mat c ℂ r n o L (p && p))
    (m2 : Mat cR ℝ r n o L (p && p)) (m : Mat c ℂ r n o L p) : ℝ :=
  fl (Real.sqrt (matNormSquaredC fl ps pd conv convC tb ts jr jc m0 m1 m2 m))

end Mathter.Fl
