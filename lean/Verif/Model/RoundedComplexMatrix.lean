import Verif.Model.RoundedComplex
import Verif.Model.RoundedLinear

/-!
# Rounded evaluation of products of complex matrices

The floating-point operations of the products in `include/Mathter/Matrix/Arithmetic.hpp` for complex element types, at storage level. `mul` is the product of two
complex numbers, `op` the combined product and sum of `madd`. There is no overflow or underflow.
-/

namespace Mathter.Fl
variable {c : Cfg} {r k n : ℕ} {o : Order} {L L' : Layout} {p1 p2 p3 : Bool}

/-- `a * b + d` in `madd` for complex numbers — Common/Functional.hpp:32-72. Scalars: the product, then the sum (`ps`, `pd` may fuse inside the product). Batches:
`xsimd::fma`, which is `a.re*b.re - (a.im*b.im - d.re)` and `a.re*b.im + (a.im*b.re + d.im)`, each product fused with the operation next to it or not. -/
def IsMulAddC (fl : ℝ → ℝ) (ps pd : ℝ → ℝ → ℝ → ℝ → ℝ) (op : ℂ → ℂ → ℂ → ℂ) : Prop :=
  ∀ a b d, ((op a b d).re = fl (pd a.re b.re a.im b.im + d.re) ∨
      ∃ inner, (inner = fl (a.im * b.im - d.re) ∨ inner = fl (fl (a.im * b.im) - d.re)) ∧
        ((op a b d).re = fl (a.re * b.re - inner) ∨ (op a b d).re = fl (fl (a.re * b.re) - inner))) ∧
    ((op a b d).im = fl (ps a.re b.im a.im b.re + d.im) ∨
      ∃ inner, (inner = fl (a.im * b.re + d.im) ∨ inner = fl (fl (a.im * b.re) + d.im)) ∧
        ((op a b d).im = fl (a.re * b.im + inner) ∨ (op a b d).im = fl (fl (a.re * b.im) + inner)))

/-- `MultiplyAdd` — Vector/Arithmetic.hpp:225-235. -/
noncomputable def multiplyAddC (op : ℂ → ℂ → ℂ → ℂ) (conv : Bool) (a : Vec c ℂ n p1) (b : Vec c ℂ n p2) (d : Vec c ℂ n p3) : Vec c ℂ n (p1 && p2 && p3) :=
  Vec.doTernary conv op a b d

/-- Row-major × row-major — Matrix/Arithmetic.hpp:17-36. -/
noncomputable def mulRRC [NeZero k] (mul : ℂ → ℂ → ℂ) (op : ℂ → ℂ → ℂ → ℂ) (conv : Bool) (m0 : Mat c ℂ r n o .row (p1 && p2))
    (lhs : Mat c ℂ r k o .row p1) (rhs : Mat c ℂ k n o .row p2) : Mat c ℂ r n o .row (p1 && p2) :=
  forUp r 0 (fun i m =>
    forUp k 1 (fun run m => m.setRow i (Vec.asPacked _ (multiplyAddC op conv (Vec.fill (lhs.get i run) : Vec c ℂ n (p1 && p2))
      (rhs.stripes run) (m.stripes i))))
      (m.setRow i (Vec.asPacked _ (Vec.scalarOp conv mul (lhs.get i 0) (rhs.stripes 0))))) m0

/-- Row-major × column-major — Matrix/Arithmetic.hpp:39-55. The elements of the right matrix are not conjugated. -/
noncomputable def mulRCC (fl : ℝ → ℝ) (mul : ℂ → ℂ → ℂ) (conv : Bool) (tb : RTree (batchSize k false)) (ts : RTree (k + 1)) (m0 : Mat c ℂ r n o .row (p1 && p2))
    (lhs : Mat c ℂ r k o .row p1) (rhs : Mat c ℂ k n o .col p2) : Mat c ℂ r n o .row (p1 && p2) :=
  Mat.fillLoop (fun i j => sumC fl tb ts (Vec.doBinary conv mul (lhs.stripes i) (rhs.stripes j) : Vec c ℂ k (p1 && p2))) m0

/-- Column-major × any layout — Matrix/Arithmetic.hpp:58-75. -/
noncomputable def mulCC [NeZero k] (mul : ℂ → ℂ → ℂ) (op : ℂ → ℂ → ℂ → ℂ) (conv : Bool) (m0 : Mat c ℂ r n o .col (p1 && p2))
    (lhs : Mat c ℂ r k o .col p1) (rhs : Mat c ℂ k n o L p2) : Mat c ℂ r n o .col (p1 && p2) :=
  forUp n 0 (fun j m =>
    forUp k 1 (fun run m => m.setCol j (Vec.asPacked _ (multiplyAddC op conv (lhs.stripes run)
      (Vec.fill (rhs.get run j) : Vec c ℂ r (p1 && p2)) (m.stripes j))))
      (m.setCol j (Vec.asPacked _ (Vec.opScalar conv mul (lhs.stripes 0) (rhs.get 0 j))))) m0

/-- `operator*(Matrix, Matrix)` — Matrix/Arithmetic.hpp:185-191. -/
noncomputable def matMulC [NeZero k] (fl : ℝ → ℝ) (mul : ℂ → ℂ → ℂ) (op : ℂ → ℂ → ℂ → ℂ) (conv : Bool) (tb : RTree (batchSize k false)) (ts : RTree (k + 1))
    (m0 : Mat c ℂ r n o L (p1 && p2)) (lhs : Mat c ℂ r k o L p1) (rhs : Mat c ℂ k n o L' p2) : Mat c ℂ r n o L (p1 && p2) :=
  match L, L', m0, lhs, rhs with
  | .row, .row, m0, lhs, rhs => mulRRC mul op conv m0 lhs rhs
  | .row, .col, m0, lhs, rhs => mulRCC fl mul conv tb ts m0 lhs rhs
  | .col, _, m0, lhs, rhs => mulCC mul op conv m0 lhs rhs

/-- vector × row-major matrix — Matrix/Arithmetic.hpp:136-147. -/
noncomputable def vecMulRC [NeZero k] (mul : ℂ → ℂ → ℂ) (op : ℂ → ℂ → ℂ → ℂ) (conv : Bool) (lhs : Vec c ℂ k p1) (rhs : Mat c ℂ k n .follow .row p2) :
    Vec c ℂ n (p2 && p2) :=
  forUp k 1 (fun run v => Vec.asPacked _ (multiplyAddC op conv (Vec.fill (lhs.get run) : Vec c ℂ n (p2 && p2)) (rhs.stripes run) v))
    (Vec.scalarOp conv mul (lhs.get 0) (rhs.stripes 0))

/-- vector × column-major matrix — Matrix/Arithmetic.hpp:149-160. -/
noncomputable def vecMulCC (fl : ℝ → ℝ) (mul : ℂ → ℂ → ℂ) (conv : Bool) (tb : RTree (batchSize k false)) (ts : RTree (k + 1)) (v0 : Vec c ℂ n (p1 && p2))
    (lhs : Vec c ℂ k p1) (rhs : Mat c ℂ k n .follow .col p2) : Vec c ℂ n (p1 && p2) :=
  forUp n 0 (fun j v => v.set j (sumC fl tb ts (Vec.doBinary conv mul lhs (rhs.stripes j) : Vec c ℂ k (p1 && p2)))) v0

/-- `operator*(Vector, Matrix)` — Matrix/Arithmetic.hpp:290-296. Only the elements are returned, as in `Mat.vecMul`. -/
noncomputable def vecMulCx [NeZero k] (fl : ℝ → ℝ) (mul : ℂ → ℂ → ℂ) (op : ℂ → ℂ → ℂ → ℂ) (conv : Bool) (tb : RTree (batchSize k false)) (ts : RTree (k + 1))
    (v0 : Vec c ℂ n (p1 && p2)) (lhs : Vec c ℂ k p1) (rhs : Mat c ℂ k n .follow L p2) : Fin n → ℂ :=
  match L, rhs with
  | .row, rhs => (vecMulRC mul op conv lhs rhs).get
  | .col, rhs => (vecMulCC fl mul conv tb ts v0 lhs rhs).get

/-- `operator*(Matrix, Vector)` — Matrix/Arithmetic.hpp:162-176, 299-305. -/
noncomputable def mulVecCx [NeZero k] (fl : ℝ → ℝ) (mul : ℂ → ℂ → ℂ) (op : ℂ → ℂ → ℂ → ℂ) (conv : Bool) (tb : RTree (batchSize k false)) (ts : RTree (k + 1))
    (v0 : Vec c ℂ n (p2 && p1)) (m0 : Mat c ℂ k n .follow L.flip p1) (lhs : Mat c ℂ n k .precede L p1) (rhs : Vec c ℂ k p2) : Fin n → ℂ :=
  vecMulCx fl mul op conv tb ts v0 rhs (Mat.flipLayoutAndOrder (o := .precede) m0 lhs)

end Mathter.Fl
