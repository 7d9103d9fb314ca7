import Verif.Model.QR
import Verif.Model.RoundedComplexMatrix
import Verif.Model.RoundedComplexLinear

/-!
# Rounded evaluation of the QR decomposition of complex matrices

The floating-point operations of `include/Mathter/Decompositions/DecomposeQR.hpp` for complex element types, at element level, without overflow or underflow. `ab` is
the modulus, `ds` and `dv` the division of a complex by a real number, of scalars and of vector elements; `mul` and `op` are as in `Model/RoundedComplexMatrix`.
-/

namespace Mathter.Fl
variable {r n m : ℕ}

/-- `LengthPrecise` of a complex vector — Vector/Math.hpp:206-213. Maxima and the clamp do not round. -/
noncomputable def lengthPreciseC (c : Cfg) (p : Bool) (fl : ℝ → ℝ) (ps pd : ℝ → ℝ → ℝ → ℝ → ℝ) (dv : ℂ → ℝ → ℂ) (lo hi : ℝ) (conv : Bool)
    (tb : RTree (batchSize (r + 1) false)) (ts : RTree (r + 1 + 1)) (x : Fin (r + 1) → ℂ) : ℝ :=
  let scale := stdClamp (scaleElements x) lo hi
  fl (lengthC fl ps pd conv tb ts (Vec.ofFn (fun i => dv (x i) scale) : Vec c ℂ (r + 1) p) * scale)

/-- `DistancePrecise` of complex vectors — Vector/Math.hpp:225-228, with the difference of Vector/Arithmetic.hpp:139. -/
noncomputable def distancePreciseC (c : Cfg) (p : Bool) (fl : ℝ → ℝ) (ps pd : ℝ → ℝ → ℝ → ℝ → ℝ) (dv : ℂ → ℝ → ℂ) (lo hi : ℝ) (conv : Bool)
    (tb : RTree (batchSize (r + 1) false)) (ts : RTree (r + 1 + 1)) (a b : Fin (r + 1) → ℂ) : ℝ :=
  lengthPreciseC c p fl ps pd dv lo hi conv tb ts fun i => flC fl (a i - b i)

open Classical in
/-- `impl::HouseholderReflection(r, k)` after `x` has been read and cleared above the diagonal — Decompositions/DecomposeQR.hpp:185-202. -/
noncomputable def householderOfC (fl : ℝ → ℝ) (ds dv : ℂ → ℝ → ℂ) (ab : ℂ → ℝ) (len : (Fin (r + 1) → ℂ) → ℝ) (k : Fin (r + 1)) (x : Fin (r + 1) → ℂ) :
    Fin (r + 1) → ℂ :=
  let normX := len x
  let pivot := x k
  let mag := ab pivot
  let sign : ℂ := if mag ≠ 0 then -ds pivot mag else 1
  let alpha : ℂ := flC fl (sign * (normX : ℂ))
  let u : Fin (r + 1) → ℂ := fun i => if i = k then flC fl (x i - alpha) else x i
  let normU := len u
  if normU ≠ 0 then fun i => dv (u i) normU else fun i => if i = k then 1 else u i

/-- `impl::HouseholderReflection(r, k)` — Decompositions/DecomposeQR.hpp:180-203. -/
noncomputable def householderC (fl : ℝ → ℝ) (ds dv : ℂ → ℝ → ℂ) (ab : ℂ → ℝ) (len : (Fin (r + 1) → ℂ) → ℝ) (hrn : n ≤ r + 1)
    (R : Matrix (Fin (r + 1)) (Fin n) ℂ) (k : Fin n) : Fin (r + 1) → ℂ :=
  householderOfC fl ds dv ab len (Fin.castLE hrn k) (fun i => if i.val < k.val then 0 else R i k)

/-- One element of `vmT * M` with `vmT` the row `Conj(v)` — Matrix/Arithmetic.hpp:17-36, 58-75: the factors have the same layout, so the terms are accumulated one by
one. -/
noncomputable def rowTimesC (mul : ℂ → ℂ → ℂ) (op : ℂ → ℂ → ℂ → ℂ) (v : Fin (r + 1) → ℂ) (M : Matrix (Fin (r + 1)) (Fin m) ℂ) (j : Fin m) : ℂ :=
  forUp (r + 1) 1 (fun q s => op (star (v q)) (M q j) s) (mul (star (v 0)) (M 0 j))

/-- `M - Real(2) * vm * (vmT * M)` — Decompositions/DecomposeQR.hpp:230-233. The product of the column and the row has one term per element. -/
noncomputable def reflectC (fl : ℝ → ℝ) (mul : ℂ → ℂ → ℂ) (op : ℂ → ℂ → ℂ → ℂ) (v : Fin (r + 1) → ℂ) (M : Matrix (Fin (r + 1)) (Fin m) ℂ) :
    Matrix (Fin (r + 1)) (Fin m) ℂ :=
  Matrix.of fun i j => flC fl (M i j - mul (flC fl (2 * v i)) (rowTimesC mul op v M j))

/-- Body of the loop of `DecomposeQR` — Decompositions/DecomposeQR.hpp:228-234. -/
noncomputable def qrStepC (fl : ℝ → ℝ) (mul : ℂ → ℂ → ℂ) (op : ℂ → ℂ → ℂ → ℂ) (ds dv : ℂ → ℝ → ℂ) (ab : ℂ → ℝ) (len : (Fin (r + 1) → ℂ) → ℝ) (hrn : n ≤ r + 1)
    (k : Fin n) (s : QRState ℂ (r + 1) n) : QRState ℂ (r + 1) n :=
  let v := householderC fl ds dv ab len hrn s.R k
  ⟨reflectC fl mul op v s.R, reflectC fl mul op v s.QT⟩

/-- `DecomposeQR(m)` — Decompositions/DecomposeQR.hpp:212-247, for `Rows = r + 1 >= Columns = n + 1`. -/
noncomputable def decomposeQRC (fl : ℝ → ℝ) (mul : ℂ → ℂ → ℂ) (op : ℂ → ℂ → ℂ → ℂ) (ds dv : ℂ → ℝ → ℂ) (ab : ℂ → ℝ) (len : (Fin (r + 1) → ℂ) → ℝ) (lo : ℝ)
    (hrn : n + 1 ≤ r + 1) (A : Matrix (Fin (r + 1)) (Fin (n + 1)) ℂ) : QR ℂ (r + 1) (n + 1) :=
  let scaler : ℝ := max lo (matScaleElements A)
  let s := forUp (n + 1) 0 (qrStepC fl mul op ds dv ab len hrn) (⟨Matrix.of fun i j => dv (A i j) scaler, 1⟩ : QRState ℂ (r + 1) (n + 1))
  let R := zeroLower hrn s.R
  ⟨Matrix.of fun i j => star (s.QT (Fin.castLE hrn j) i), Matrix.of fun i j => flC fl ((scaler : ℂ) * R (Fin.castLE hrn i) j)⟩

/-- `DecomposeLQ(m)` — Decompositions/DecomposeQR.hpp:253-259. -/
noncomputable def decomposeLQC (fl : ℝ → ℝ) (mul : ℂ → ℂ → ℂ) (op : ℂ → ℂ → ℂ → ℂ) (ds dv : ℂ → ℝ → ℂ) (ab : ℂ → ℝ) (len : (Fin (n + 1) → ℂ) → ℝ) (lo : ℝ)
    (hrn : r + 1 ≤ n + 1) (A : Matrix (Fin (r + 1)) (Fin (n + 1)) ℂ) : LQ ℂ (r + 1) (n + 1) :=
  let d := decomposeQRC fl mul op ds dv ab len lo hrn A.transpose
  ⟨d.R.transpose, d.Q.transpose⟩

end Mathter.Fl
