import Verif.Model.Ieee
import Verif.Model.Elementwise

/-!
# `Sum`, `Trace`, `NormSquared` and `Norm` of matrices with NaN and infinities

`include/Mathter/Matrix/Math.hpp` for real element types, over the floating-point values of `Model/Ieee`. `m0`, `m1`, `m2`, `v0`, `jr` and `jc` are
uninitialised storage.
-/

namespace Mathter.Ie
variable {c : Cfg} {r n : ℕ} {o : Order} {L : Layout} {p : Bool}

/-- `Sum(m)` — Matrix/Math.hpp:54-61. -/
noncomputable def matSum (fl : ℝ → Fx) (tb : RTree (batchSize (stripeDim L r n) false)) (ts : RTree (stripeDim L r n + 1)) (m : Mat c Fx r n o L p) : Fx :=
  forUp (stripeCount L r n) 0 (fun s acc => Fx.add fl acc (sum fl tb ts (m.stripes s))) (.fin 0)

/-- `Trace(m)` — Matrix/Math.hpp:155-162. -/
noncomputable def matTrace (fl : ℝ → Fx) (tb : RTree (batchSize n false)) (ts : RTree (n + 1)) (v0 : Vec c Fx n p) (m : Mat c Fx n n o L p) : Fx :=
  sum fl tb ts (forUp n 0 (fun i v => v.set i (m.get i i)) v0)

/-- `Conj(m)` and `Real(m)` of a real matrix — Matrix/Math.hpp:77-85, 102-109; the functors `conj` and `real` return a real argument as it is. -/
noncomputable def matSame (conv : Bool) (m0 m : Mat c Fx r n o L p) : Mat c Fx r n o L p := Mat.mapStripesTo (fun v => Vec.doUnary conv (fun x => x) v) m0 m

/-- `NormSquared(m)` — Matrix/Math.hpp:113-116. -/
noncomputable def matNormSquared (fl : ℝ → Fx) (conv : Bool) (tb : RTree (batchSize (stripeDim L r n) false)) (ts : RTree (stripeDim L r n + 1)) (jr : Vec c Fx n p)
    (jc : Vec c Fx r p) (m0 : Mat c Fx r n o L p) (m1 m2 : Mat c Fx r n o L (p && p)) (m : Mat c Fx r n o L p) : Fx :=
  matSum fl tb ts (matSame conv m2 (Mat.elementwise (fun v w => Vec.doBinary conv (Fx.mul fl) v w) jr jc m1 m (matSame conv m0 m)))

/-- `Norm(m)` — Matrix/Math.hpp:120-123. -/
noncomputable def matNorm (fl : ℝ → Fx) (conv : Bool) (tb : RTree (batchSize (stripeDim L r n) false)) (ts : RTree (stripeDim L r n + 1)) (jr : Vec c Fx n p)
    (jc : Vec c Fx r p) (m0 : Mat c Fx r n o L p) (m1 m2 : Mat c Fx r n o L (p && p)) (m : Mat c Fx r n o L p) : Fx :=
  Fx.sqrt fl (matNormSquared fl conv tb ts jr jc m0 m1 m2 m)

end Mathter.Ie
