import Mathlib.Data.Matrix.Mul
import Verif.Model.Matrix

/-!
# Applying a transform matrix

What a transform matrix does to a position: `v * M` for matrices that follow the vector, `M * v` for matrices that precede it. A square
matrix of the dimension of the vector is a linear map; with one more input dimension the vector is extended by 1 (affine map); with one
more dimension on both sides the result is also divided by its last element (C24, C25 prove that the operators of the library do this).
-/

namespace Mathter
universe u
variable {K : Type u}

/-- The three kinds of transform matrices for `n`-dimensional vectors. -/
inductive TKind
  | linear
  | affine
  | homogeneous

/-- Number of outputs of the map. -/
@[reducible] def TKind.outs (n : ℕ) : TKind → ℕ
  | .linear => n
  | .affine => n
  | .homogeneous => n + 1

/-- Number of inputs of the map. -/
@[reducible] def TKind.ins (n : ℕ) : TKind → ℕ
  | .linear => n
  | .affine => n + 1
  | .homogeneous => n + 1

/-- Rows of the matrix. -/
@[reducible] def tRows (o : Order) (n : ℕ) (k : TKind) : ℕ :=
  match o with
  | .precede => k.outs n
  | .follow => k.ins n

/-- Columns of the matrix. -/
@[reducible] def tCols (o : Order) (n : ℕ) (k : TKind) : ℕ :=
  match o with
  | .precede => k.ins n
  | .follow => k.outs n

/-- The vector extended by 1 where the map has an additional input. -/
def TKind.extend [One K] {n : ℕ} (k : TKind) (v : Fin n → K) : Fin (k.ins n) → K :=
  match k with
  | .linear => v
  | .affine => Fin.snoc (α := fun _ => K) v 1
  | .homogeneous => Fin.snoc (α := fun _ => K) v 1

open Classical in
/-- The result, divided by its last element where the map has an additional output; `none` for a division by zero. -/
noncomputable def TKind.finish [Field K] {n : ℕ} (k : TKind) (w : Fin (k.outs n) → K) : Option (Fin n → K) :=
  match k, w with
  | .linear, w => some w
  | .affine, w => some w
  | .homogeneous, w => if w (Fin.last n) = 0 then none else some fun i => w i.castSucc / w (Fin.last n)

/-- The image of the position `v`. -/
noncomputable def applyT [Field K] (o : Order) {n : ℕ} (k : TKind) (m : Matrix (Fin (tRows o n k)) (Fin (tCols o n k)) K) (v : Fin n → K) :
    Option (Fin n → K) :=
  match o, m with
  | .precede, m => k.finish (m.mulVec (k.extend v))
  | .follow, m => k.finish (Matrix.vecMul (k.extend v) m)

end Mathter
