import Verif.Model.VectorMath
import Verif.Model.LinearSolve

/-!
# QR and LQ decompositions

Models `include/Mathter/Decompositions/DecomposeQR.hpp` at element level over `𝕜 = ℝ` or `ℂ` in exact arithmetic. `lo`, `hi` are the
smallest and largest positive normal values of the scalar type; theorems hold for any `0 < lo ≤ hi`.
-/

namespace Mathter
universe u
variable {𝕜 : Type u} [RCLike 𝕜] {r n m : ℕ}

/-- `ScaleElements(m)` of a matrix — Matrix/Math.hpp:40-50. The stripes are the rows here; with columns as stripes it is the maximum of
the same magnitudes. -/
noncomputable def matScaleElements (A : Matrix (Fin r) (Fin (n + 1)) 𝕜) : ℝ := forUp r 0 (fun i scale => max scale (scaleElements (A i))) 0

open Classical in
/-- `impl::HouseholderReflection(r, k)` after `x` has been read and cleared above the diagonal — Decompositions/DecomposeQR.hpp:185-202. -/
noncomputable def householderOf (lo hi : ℝ) (k : Fin (r + 1)) (x : Fin (r + 1) → 𝕜) : Fin (r + 1) → 𝕜 :=
  let normX := lengthPrecise lo hi x
  let pivot := x k
  let mag := ‖pivot‖
  let sign : 𝕜 := if mag ≠ 0 then -(pivot / (mag : 𝕜)) else 1
  let alpha : 𝕜 := sign * (normX : 𝕜)
  let u : Fin (r + 1) → 𝕜 := fun i => if i = k then x i - alpha else x i
  let normU := lengthPrecise lo hi u
  if normU ≠ 0 then divReal u normU else fun i => if i = k then 1 else u i

/-- `impl::HouseholderReflection(r, k)` — Decompositions/DecomposeQR.hpp:180-203. The row index `k` is in range because `Rows >= Columns`. -/
noncomputable def householder (lo hi : ℝ) (hrn : n ≤ r + 1) (R : Matrix (Fin (r + 1)) (Fin n) 𝕜) (k : Fin n) : Fin (r + 1) → 𝕜 :=
  householderOf lo hi (Fin.castLE hrn k) (fun i => if i.val < k.val then 0 else R i k)

/-- `M - Real(2) * vm * (vmT * M)` with `vm` the column `v` and `vmT` the row `Conj(v)` — Decompositions/DecomposeQR.hpp:230-233. -/
def reflect (v : Fin r → 𝕜) (M : Matrix (Fin r) (Fin m) 𝕜) : Matrix (Fin r) (Fin m) 𝕜 :=
  Matrix.of fun i j => M i j - 2 * v i * ∑ q, star (v q) * M q j

/-- State of the loop of `DecomposeQR`. (Decompositions/DecomposeQR.hpp:222-227.) -/
structure QRState (𝕜 : Type u) (r n : ℕ) where
  R : Matrix (Fin r) (Fin n) 𝕜
  QT : Matrix (Fin r) (Fin r) 𝕜

/-- Body of the loop of `DecomposeQR` — Decompositions/DecomposeQR.hpp:228-234. -/
noncomputable def qrStep (lo hi : ℝ) (hrn : n ≤ r + 1) (k : Fin n) (s : QRState 𝕜 (r + 1) n) : QRState 𝕜 (r + 1) n :=
  let v := householder lo hi hrn s.R k
  ⟨reflect v s.R, reflect v s.QT⟩

/-- `Q`, `R` of `DecompositionQR` — Decompositions/DecomposeQR.hpp:24-33. -/
structure QR (𝕜 : Type u) (r n : ℕ) where
  Q : Matrix (Fin r) (Fin n) 𝕜
  R : Matrix (Fin n) (Fin n) 𝕜

/-- The loops zeroing the lower triangle — Decompositions/DecomposeQR.hpp:237-241. -/
def zeroLower (hrn : n ≤ r) (R : Matrix (Fin r) (Fin n) 𝕜) : Matrix (Fin r) (Fin n) 𝕜 :=
  forUp n 0 (fun c R => forUp n (c.val + 1) (fun row (R : Matrix (Fin r) (Fin n) 𝕜) => Matrix.of fun i j =>
    if i = Fin.castLE hrn row ∧ j = c then 0 else R i j) R) R

/-- `DecomposeQR(m)` — Decompositions/DecomposeQR.hpp:212-247, for `Rows = r + 1 >= Columns = n + 1`. -/
noncomputable def decomposeQR (lo hi : ℝ) (hrn : n + 1 ≤ r + 1) (A : Matrix (Fin (r + 1)) (Fin (n + 1)) 𝕜) : QR 𝕜 (r + 1) (n + 1) :=
  let scaler : ℝ := max lo (matScaleElements A)
  let s := forUp (n + 1) 0 (qrStep lo hi hrn) (⟨Matrix.of fun i j => A i j / (scaler : 𝕜), 1⟩ : QRState 𝕜 (r + 1) (n + 1))
  let R := zeroLower hrn s.R
  ⟨Matrix.of fun i j => star (s.QT (Fin.castLE hrn j) i), Matrix.of fun i j => (scaler : 𝕜) * R (Fin.castLE hrn i) j⟩

/-- `L`, `Q` of `DecompositionLQ` — Decompositions/DecomposeQR.hpp:109-119. -/
structure LQ (𝕜 : Type u) (r n : ℕ) where
  L : Matrix (Fin r) (Fin r) 𝕜
  Q : Matrix (Fin r) (Fin n) 𝕜

/-- `DecomposeLQ(m)` — Decompositions/DecomposeQR.hpp:253-259. -/
noncomputable def decomposeLQ (lo hi : ℝ) (hrn : r + 1 ≤ n + 1) (A : Matrix (Fin (r + 1)) (Fin (n + 1)) 𝕜) : LQ 𝕜 (r + 1) (n + 1) :=
  let d := decomposeQR lo hi hrn A.transpose
  ⟨d.R.transpose, d.Q.transpose⟩

variable [DecidableEq 𝕜]

/-- `DecompositionQR::Solve(b)` — Decompositions/DecomposeQR.hpp:75-80, 101-105: `SolveUpperTriangular(R, ConjTranspose(Q) * b)`. -/
def qrSolve (d : QR 𝕜 r n) (b : Matrix (Fin r) (Fin m) 𝕜) : Option (Matrix (Fin n) (Fin m) 𝕜) := solveUpper d.R (d.Q.conjTranspose * b)

/-- `DecompositionQR::Solve(Vector)` — Decompositions/DecomposeQR.hpp:85-88: the vector as a one-column matrix. -/
def qrSolveVec (d : QR 𝕜 r n) (b : Fin r → 𝕜) : Option (Fin n → 𝕜) := (qrSolve d (Matrix.of fun i (_ : Fin 1) => b i)).map fun x i => x i 0

/-- `DecompositionQR::Inverse()` — Decompositions/DecomposeQR.hpp:91-98; `SetOrder(…, false_type)` keeps the elements (C21). -/
def qrInverse (d : QR 𝕜 r n) : Option (Matrix (Fin n) (Fin r) 𝕜) := (solveUpper d.R 1).map fun Rinv => Rinv * d.Q.conjTranspose

/-- `DecompositionLQ::Solve(Vector)` — Decompositions/DecomposeQR.hpp:162-167. (The overload for matrices, lines 153-159, is declared for
right-hand sides with `Rows` columns but hands them to a QR solver expecting `Columns` rows: it is instantiable for square matrices only.) -/
def lqSolveVec (d : LQ 𝕜 r n) (b : Fin n → 𝕜) : Option (Fin r → 𝕜) := qrSolveVec ⟨d.Q.transpose, d.L.transpose⟩ b

/-- `DecompositionLQ::Solve(Matrix)` — Decompositions/DecomposeQR.hpp:153-159, square case. -/
def lqSolve (d : LQ 𝕜 n n) (b : Matrix (Fin m) (Fin n) 𝕜) : Option (Matrix (Fin m) (Fin n) 𝕜) :=
  (qrSolve ⟨d.Q.transpose, d.L.transpose⟩ b.transpose).map Matrix.transpose

/-- `DecompositionLQ::Inverse()` — Decompositions/DecomposeQR.hpp:170-174. -/
def lqInverse (d : LQ 𝕜 r n) : Option (Matrix (Fin n) (Fin r) 𝕜) := (qrInverse ⟨d.Q.transpose, d.L.transpose⟩).map Matrix.transpose

end Mathter
