import Verif.Model.SVD
import Verif.Spec.Rounding

/-!
# Solving and inverting with a computed singular value decomposition, in floating point

The matrix products are parameters: `IsProduct` says how accurate they are, and `C136_product` shows that the library's products are. Only real matrices:
`ConjTranspose` is the transpose.
-/

namespace Mathter.Fl
open Mathter
variable {r k n m : ℕ}

/-- A rounded product of matrices of any shape, each element a sum of `b` products with at most `b` roundings each. What `C82_mul` shows of the products of
Matrix/Arithmetic.hpp:185-191. -/
def IsProduct {a b c : ℕ} (u : ℝ) (mul : Matrix (Fin a) (Fin b) ℝ → Matrix (Fin b) (Fin c) ℝ → Matrix (Fin a) (Fin c) ℝ) : Prop :=
  ∀ A B i j, |mul A B i j - ∑ q, A i q * B q j| ≤ ((1 + u) ^ b - 1) * ∑ q, |A i q * B q j|

/-- `DecompositionSVD::Solve(b)` for `PRECEDE_VECTOR` — DecomposeSVD.hpp:61-68, with rounded products and divisions. The loop runs over `Columns` although `X`
and `S` have `k` rows. `none`: index out of range or division by zero. -/
noncomputable def svdSolvePrecede (fl : ℝ → ℝ) (mul1 : Matrix (Fin k) (Fin r) ℝ → Matrix (Fin r) (Fin m) ℝ → Matrix (Fin k) (Fin m) ℝ)
    (mul2 : Matrix (Fin n) (Fin k) ℝ → Matrix (Fin k) (Fin m) ℝ → Matrix (Fin n) (Fin m) ℝ) (d : SVD ℝ r k n) (b : Matrix (Fin r) (Fin m) ℝ) :
    Option (Matrix (Fin n) (Fin m) ℝ) :=
  open Classical in
  let X := mul1 d.U.transpose b
  (forUp n 0 (fun row (X : Option (Matrix (Fin k) (Fin m) ℝ)) => X.bind fun X =>
    if h : row.val < k then
      if d.S ⟨row, h⟩ = 0 then none else some (Matrix.of fun i j => if i.val = row.val then fl (X ⟨row, h⟩ j / d.S ⟨row, h⟩) else X i j)
    else none) (some X)).map fun X => mul2 d.V.transpose X

/-- `DecompositionSVD::Solve(b)` for `FOLLOW_VECTOR` — DecomposeSVD.hpp:69-76, with rounded products and divisions. The loop runs over `Rows`. -/
noncomputable def svdSolveFollow (fl : ℝ → ℝ) (mul1 : Matrix (Fin m) (Fin n) ℝ → Matrix (Fin n) (Fin k) ℝ → Matrix (Fin m) (Fin k) ℝ)
    (mul2 : Matrix (Fin m) (Fin k) ℝ → Matrix (Fin k) (Fin r) ℝ → Matrix (Fin m) (Fin r) ℝ) (d : SVD ℝ r k n) (b : Matrix (Fin m) (Fin n) ℝ) :
    Option (Matrix (Fin m) (Fin r) ℝ) :=
  open Classical in
  let X := mul1 b d.V.transpose
  (forUp r 0 (fun col (X : Option (Matrix (Fin m) (Fin k) ℝ)) => X.bind fun X =>
    if h : col.val < k then
      if d.S ⟨col, h⟩ = 0 then none else some (Matrix.of fun i j => if j.val = col.val then fl (X i ⟨col, h⟩ / d.S ⟨col, h⟩) else X i j)
    else none) (some X)).map fun X => mul2 X d.U.transpose

/-- `DecompositionSVD::Inverse()` — DecomposeSVD.hpp:92-100, with rounded products and divisions. -/
noncomputable def svdInverse (fl : ℝ → ℝ) (mul : Matrix (Fin n) (Fin k) ℝ → Matrix (Fin k) (Fin r) ℝ → Matrix (Fin n) (Fin r) ℝ) (d : SVD ℝ r k n) :
    Option (Matrix (Fin n) (Fin r) ℝ) :=
  open Classical in
  let Xi := d.V.transpose
  (forUp k 0 (fun i (Xi : Option (Matrix (Fin n) (Fin k) ℝ)) => Xi.bind fun Xi =>
    if d.S i = 0 then none else some (Matrix.of fun a j => if j = i then fl (Xi a i / d.S i) else Xi a j)) (some Xi)).map fun Xi =>
      mul Xi d.U.transpose

end Mathter.Fl
