import Verif.Model.RoundedReduce
import Verif.Model.RoundedSVD
import Verif.Model.RoundedDeterminant
import Mathlib.Analysis.Complex.Norm

/-!
# Rounded evaluation of sums, products and lengths of complex vectors

The floating-point operations of `Sum`, `SumCompensated`, `Dot`, `LengthSquared`, `Length` and `Distance` (`include/Mathter/Vector/Math.hpp`) for complex element
types: a rounding `fl` of real and imaginary part after every operation, products with separate or fused operations (`pd`, `ps`). `fl` has no overflow or
underflow.
-/

namespace Mathter.Fl
variable {c : Cfg} {dim : ℕ} {p p1 p2 : Bool}

/-- Rounding of both parts: what `+` and `-` of `std::complex` and of complex batches do to the exact result. (used in Vector/Math.hpp:152, 162-170.) -/
def flC (fl : ℝ → ℝ) (z : ℂ) : ℂ := ⟨fl z.re, fl z.im⟩

/-- The product of complex numbers: `(a.re*b.re - a.im*b.im, a.re*b.im + a.im*b.re)`. (used in Vector/Math.hpp:178.) -/
def prodC (ps pd : ℝ → ℝ → ℝ → ℝ → ℝ) (a b : ℂ) : ℂ := ⟨pd a.re b.re a.im b.im, ps a.re b.im a.im b.re⟩

/-- `Sum` — Vector/Math.hpp:142-153; see `Fl.sum` for the trees. -/
noncomputable def sumC (fl : ℝ → ℝ) (tb : RTree (batchSize dim false)) (ts : RTree (dim + 1)) (v : Vec c ℂ dim p) : ℂ :=
  if h : isBatched c dim p = true then tb.eval (fun x y => flC fl (x + y)) (Vec.fillMasked dim (v.load h) 0)
  else ts.eval (fun x y => flC fl (x + y)) (fun i => if h : i.val < dim then v.get ⟨i.val, h⟩ else 0)

/-- `Conj(v)`, exact — Vector/Math.hpp:127-130. -/
noncomputable def conjC (conv : Bool) (v : Vec c ℂ dim p) : Vec c ℂ dim p := Vec.doUnary conv (fun z => ⟨z.re, -z.im⟩) v

/-- `Dot` — Vector/Math.hpp:176-180. -/
noncomputable def dotC (fl : ℝ → ℝ) (ps pd : ℝ → ℝ → ℝ → ℝ → ℝ) (conv : Bool) (tb : RTree (batchSize dim false)) (ts : RTree (dim + 1)) (a : Vec c ℂ dim p1)
    (b : Vec c ℂ dim p2) : ℂ :=
  sumC fl tb ts (Vec.doBinary conv (prodC ps pd) a (conjC conv b) : Vec c ℂ dim (p1 && p2))

/-- `LengthSquared` — Vector/Math.hpp:190-194. -/
noncomputable def lengthSquaredC (fl : ℝ → ℝ) (ps pd : ℝ → ℝ → ℝ → ℝ → ℝ) (conv : Bool) (tb : RTree (batchSize dim false)) (ts : RTree (dim + 1))
    (v : Vec c ℂ dim p) : ℝ :=
  (dotC fl ps pd conv tb ts v v).re

/-- `Length` — Vector/Math.hpp:197-201, with a correctly rounded `std::sqrt`. -/
noncomputable def lengthC (fl : ℝ → ℝ) (ps pd : ℝ → ℝ → ℝ → ℝ → ℝ) (conv : Bool) (tb : RTree (batchSize dim false)) (ts : RTree (dim + 1)) (v : Vec c ℂ dim p) : ℝ :=
  fl (Real.sqrt (lengthSquaredC fl ps pd conv tb ts v))

/-- `Distance` — Vector/Math.hpp:216-220. -/
noncomputable def distanceC (fl : ℝ → ℝ) (ps pd : ℝ → ℝ → ℝ → ℝ → ℝ) (conv : Bool) (tb : RTree (batchSize dim false)) (ts : RTree (dim + 1)) (a : Vec c ℂ dim p1)
    (b : Vec c ℂ dim p2) : ℝ :=
  lengthC fl ps pd conv tb ts (Vec.doBinary conv (fun x y => flC fl (x - y)) a b : Vec c ℂ dim (p1 && p2))

/-! ## Compensated sums -/

/-- `Fast2Sum(a, b)` — Common/MathUtil.hpp:16-22. -/
noncomputable def fast2SumC (fl : ℝ → ℝ) (a b : ℂ) : ℂ × ℂ :=
  let s := flC fl (a + b)
  let z := flC fl (s - a)
  let c := flC fl (b - z)
  (s, c)

/-- Body of the loop of `SumCompensated` — Vector/Math.hpp:161-170; `mod` is `std::abs`. -/
noncomputable def sumCompStepC (fl : ℝ → ℝ) (mod : ℂ → ℝ) (st : ℂ × ℂ) (element : ℂ) : ℂ × ℂ :=
  let (sum, compensation) := st
  let t := flC fl (sum + element)
  let compensation := if mod sum > mod element then flC fl (compensation + flC fl (flC fl (sum - t) + element))
    else flC fl (compensation + flC fl (flC fl (element - t) + sum))
  (t, compensation)

/-- `SumCompensated(v)` — Vector/Math.hpp:158-173, for complex element types. -/
noncomputable def sumCompensatedC {n : ℕ} (fl : ℝ → ℝ) (mod : ℂ → ℝ) (v : Fin n → ℂ) : ℂ × ℂ :=
  let st := (List.ofFn v).foldl (sumCompStepC fl mod) (0, 0)
  fast2SumC fl st.1 st.2

/-- `DotCompensated(lhs, rhs)` — Vector/Math.hpp:184-187, for complex element types. -/
noncomputable def dotCompensatedC {n : ℕ} (fl : ℝ → ℝ) (ps pd : ℝ → ℝ → ℝ → ℝ → ℝ) (mod : ℂ → ℝ) (lhs rhs : Fin n → ℂ) : ℂ × ℂ :=
  sumCompensatedC fl mod fun i => prodC ps pd (lhs i) ⟨(rhs i).re, -(rhs i).im⟩

end Mathter.Fl
