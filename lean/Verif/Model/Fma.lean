import Verif.Model.Swizzle
import Mathlib.Data.Real.Basic
import Mathlib.Data.Fin.VecNotation

/-!
# Rounded evaluation of `FMTA` and the 3D cross product

The floating-point operations of `FMTA` (`include/Mathter/Vector/Arithmetic.hpp`) and of the three-dimensional branch of `Cross`
(`include/Mathter/Vector/Math.hpp`) with a rounding `fl` after every operation. The numbers are reals; `fl` has no overflow or underflow. `fma` of
floats is fused in every branch: `std::fma` for scalars, `xsimd::fma` on architectures with the instruction (Common/Functional.hpp:74-120; `xsimd`'s
own emulation on other architectures is excluded by `supports_fma`).
-/

namespace Mathter.Fl
variable {c : Cfg} {dim : ℕ} {p p1 p2 p3 p4 : Bool}

/-- `operator*(Vector, Vector)` of floats — Vector/Arithmetic.hpp:51-55, 138. -/
noncomputable def mul (fl : ℝ → ℝ) (conv : Bool) (a : Vec c ℝ dim p1) (b : Vec c ℝ dim p2) : Vec c ℝ dim (p1 && p2) :=
  Vec.doBinary conv (fun x y => fl (x * y)) a b

/-- `operator+(Vector, Vector)` of floats — Vector/Arithmetic.hpp:51-55, 140. -/
noncomputable def add (fl : ℝ → ℝ) (conv : Bool) (a : Vec c ℝ dim p1) (b : Vec c ℝ dim p2) : Vec c ℝ dim (p1 && p2) :=
  Vec.doBinary conv (fun x y => fl (x + y)) a b

/-- Unary minus of floats — Vector/Arithmetic.hpp:214-217: `arg * -static_cast<T1>(1)`. -/
noncomputable def neg (fl : ℝ → ℝ) (conv : Bool) (a : Vec c ℝ dim p) : Vec c ℝ dim (p && p) :=
  Vec.opScalar conv (fun x y => fl (x * y)) a (-1)

/-- `FMA` of floats — Vector/Arithmetic.hpp:238-248, Common/Functional.hpp:74-120: one rounding. -/
noncomputable def fma (fl : ℝ → ℝ) (conv : Bool) (a : Vec c ℝ dim p1) (b : Vec c ℝ dim p2) (d : Vec c ℝ dim p3) : Vec c ℝ dim (p1 && p2 && p3) :=
  Vec.doTernary conv (fun x y z => fl (x * y + z)) a b d

/-- `FMTA(a, b, c, d)` of floats — Vector/Arithmetic.hpp:251-269. -/
noncomputable def fmta (fl : ℝ → ℝ) (conv : Bool) (a : Vec c ℝ dim p1) (b : Vec c ℝ dim p2) (x : Vec c ℝ dim p3) (d : Vec c ℝ dim p4) :
    Vec c ℝ dim ((p1 && p2 && (p4 && p3)) && (p4 && p3 && ((p4 && p3) && (p4 && p3)))) :=
  let w := mul fl conv d x
  let e := fma fl conv d x (neg fl conv w)
  let f := fma fl conv a b w
  add fl conv f e

/-- `Cross` in three dimensions, of floats — Vector/Math.hpp:370-380: `FMTA(Vector(a.yzx), Vector(b.zxy), -Vector(a.zxy), Vector(b.yzx))`. The
deduction guide (Vector/Vector.hpp:250-251) keeps the packing; `junk` is the uninitialised padding. -/
noncomputable def cross3 (fl : ℝ → ℝ) (conv : Bool) (junk : ℕ → ℝ) (a b : Vec c ℝ 3 p) :
    Vec c ℝ 3 ((p && p && (p && (p && p))) && (p && (p && p) && ((p && (p && p)) && (p && (p && p))))) :=
  fmta fl conv (Swz.toVec junk junk a ![1, 2, 0] : Vec c ℝ 3 p) (Swz.toVec junk junk b ![2, 0, 1] : Vec c ℝ 3 p)
    (neg fl conv (Swz.toVec junk junk a ![2, 0, 1] : Vec c ℝ 3 p)) (Swz.toVec junk junk b ![1, 2, 0] : Vec c ℝ 3 p)

end Mathter.Fl
