import Verif.Model.QR
import Verif.Model.RoundedLinear

/-!
# Rounded evaluation of the QR decomposition

The floating-point operations of `include/Mathter/Decompositions/DecomposeQR.hpp` with a rounding `fl` after every operation, for real element types.
`fl` has no overflow or underflow. Like `Verif.Model.QR` the decomposition is at element level; the lengths are reduced in the order that the
configuration `c`, the packing `p` and the reduction trees prescribe.
-/

namespace Mathter.Fl
variable {r n m : ℕ}

/-- `LengthPrecise` — Vector/Math.hpp:206-213. Absolute values, maxima and the clamp do not round. -/
noncomputable def lengthPrecise (c : Cfg) (p : Bool) (fl : ℝ → ℝ) (lo hi : ℝ) (conv : Bool) (tb : RTree (batchSize (r + 1) false)) (ts : RTree (r + 1 + 1))
    (x : Fin (r + 1) → ℝ) : ℝ :=
  let scale := stdClamp (scaleElements x) lo hi
  fl (length fl conv tb ts (Vec.ofFn (fun i => fl (x i / scale)) : Vec c ℝ (r + 1) p) * scale)

open Classical in
/-- `impl::HouseholderReflection(r, k)` after `x` has been read and cleared above the diagonal — Decompositions/DecomposeQR.hpp:185-202. `len` is the
`LengthPrecise` in use. -/
noncomputable def householderOf (fl : ℝ → ℝ) (len : (Fin (r + 1) → ℝ) → ℝ) (k : Fin (r + 1)) (x : Fin (r + 1) → ℝ) : Fin (r + 1) → ℝ :=
  let normX := len x
  let pivot := x k
  let mag := |pivot|
  let sign : ℝ := if mag ≠ 0 then -fl (pivot / mag) else 1
  let alpha : ℝ := fl (sign * normX)
  let u : Fin (r + 1) → ℝ := fun i => if i = k then fl (x i - alpha) else x i
  let normU := len u
  if normU ≠ 0 then fun i => fl (u i / normU) else fun i => if i = k then 1 else u i

/-- `impl::HouseholderReflection(r, k)` — Decompositions/DecomposeQR.hpp:180-203. -/
noncomputable def householder (fl : ℝ → ℝ) (len : (Fin (r + 1) → ℝ) → ℝ) (hrn : n ≤ r + 1) (R : Matrix (Fin (r + 1)) (Fin n) ℝ) (k : Fin n) :
    Fin (r + 1) → ℝ :=
  householderOf fl len (Fin.castLE hrn k) (fun i => if i.val < k.val then 0 else R i k)

/-- One element of `vmT * M` — Matrix/Arithmetic.hpp:17-36, 58-75: the factors have the same layout, so the terms are accumulated one by one. -/
noncomputable def rowTimes (fl : ℝ → ℝ) (madd : ℝ → ℝ → ℝ → ℝ) (v : Fin (r + 1) → ℝ) (M : Matrix (Fin (r + 1)) (Fin m) ℝ) (j : Fin m) : ℝ :=
  forUp (r + 1) 1 (fun q s => madd (v q) (M q j) s) (fl (v 0 * M 0 j))

/-- `M - Real(2) * vm * (vmT * M)` — Decompositions/DecomposeQR.hpp:230-233. The product of the column and the row has one term per element; `msub` may
fuse it with the subtraction. -/
noncomputable def reflect (fl : ℝ → ℝ) (madd msub : ℝ → ℝ → ℝ → ℝ) (v : Fin (r + 1) → ℝ) (M : Matrix (Fin (r + 1)) (Fin m) ℝ) :
    Matrix (Fin (r + 1)) (Fin m) ℝ :=
  Matrix.of fun i j => msub (M i j) (fl (2 * v i)) (rowTimes fl madd v M j)

/-- Body of the loop of `DecomposeQR` — Decompositions/DecomposeQR.hpp:228-234. -/
noncomputable def qrStep (fl : ℝ → ℝ) (madd msub : ℝ → ℝ → ℝ → ℝ) (len : (Fin (r + 1) → ℝ) → ℝ) (hrn : n ≤ r + 1) (k : Fin n)
    (s : QRState ℝ (r + 1) n) : QRState ℝ (r + 1) n :=
  let v := householder fl len hrn s.R k
  ⟨reflect fl madd msub v s.R, reflect fl madd msub v s.QT⟩

/-- `DecomposeQR(m)` — Decompositions/DecomposeQR.hpp:212-247, for `Rows = r + 1 >= Columns = n + 1`. -/
noncomputable def decomposeQR (fl : ℝ → ℝ) (madd msub : ℝ → ℝ → ℝ → ℝ) (len : (Fin (r + 1) → ℝ) → ℝ) (lo : ℝ) (hrn : n + 1 ≤ r + 1)
    (A : Matrix (Fin (r + 1)) (Fin (n + 1)) ℝ) : QR ℝ (r + 1) (n + 1) :=
  let scaler : ℝ := max lo (matScaleElements A)
  let s := forUp (n + 1) 0 (qrStep fl madd msub len hrn) (⟨Matrix.of fun i j => fl (A i j / scaler), 1⟩ : QRState ℝ (r + 1) (n + 1))
  let R := zeroLower hrn s.R
  ⟨Matrix.of fun i j => s.QT (Fin.castLE hrn j) i, Matrix.of fun i j => fl (scaler * R (Fin.castLE hrn i) j)⟩

/-- `DecomposeLQ(m)` — Decompositions/DecomposeQR.hpp:253-259. -/
noncomputable def decomposeLQ (fl : ℝ → ℝ) (madd msub : ℝ → ℝ → ℝ → ℝ) (len : (Fin (n + 1) → ℝ) → ℝ) (lo : ℝ) (hrn : r + 1 ≤ n + 1)
    (A : Matrix (Fin (r + 1)) (Fin (n + 1)) ℝ) : LQ ℝ (r + 1) (n + 1) :=
  let d := decomposeQR fl madd msub len lo hrn A.transpose
  ⟨d.R.transpose, d.Q.transpose⟩

/-- `DecompositionQR::Solve(b)` — Decompositions/DecomposeQR.hpp:75-80, 101-105: `SolveUpperTriangular(R, ConjTranspose(Q) * b)`, where the product is
the one of the storage level; `m0`, `t0` are the indeterminate contents of the results. -/
noncomputable def qrSolve {c : Cfg} {L L' : Layout} {p1 p2 : Bool} [NeZero r] (fl : ℝ → ℝ) (madd msub : ℝ → ℝ → ℝ → ℝ) (conv : Bool)
    (tb : RTree (batchSize r false)) (ts : RTree (r + 1)) (t0 : Mat c ℝ n r .precede L p1) (m0 : Mat c ℝ n m .precede L (p1 && p2))
    (Q : Mat c ℝ r n .precede L p1) (R : Matrix (Fin n) (Fin n) ℝ) (b : Mat c ℝ r m .precede L' p2) : Option (Matrix (Fin n) (Fin m) ℝ) :=
  solveUpper fl msub R (Matrix.of (matMul fl madd conv tb ts m0 (Mat.transpose t0 Q) b).get)

end Mathter.Fl
