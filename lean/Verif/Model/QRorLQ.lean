import Verif.Model.QR
import Verif.Model.Matrix

/-!
# `DecomposeQRorLQ` — Decompositions/DecomposeQR.hpp:266-283

The function picks the decomposition at compile time and returns one of two unrelated classes. Its users write `auto`, so the model is
a sum of the two. What does not compile is an outer `none`; an inner `none` is a division by zero, as in `Model/QR.lean`.
-/

namespace Mathter
universe u
variable {𝕜 : Type u} [RCLike 𝕜] {r n m : ℕ}

/-- The type that `auto d = DecomposeQRorLQ(m)` ends up with — Decompositions/DecomposeQR.hpp:24-34, 109-119. -/
inductive QRorLQ (𝕜 : Type u) (r n : ℕ)
  | qr (d : QR 𝕜 r n)
  | lq (d : LQ 𝕜 r n)

/-- `DecomposeQRorLQ(m)` — Decompositions/DecomposeQR.hpp:266-283. -/
noncomputable def decomposeQRorLQ (lo hi : ℝ) (o : Order) (A : Matrix (Fin (r + 1)) (Fin (n + 1)) 𝕜) : QRorLQ 𝕜 (r + 1) (n + 1) :=
  if h : r + 1 = n + 1 then
    match o with
    | .precede => .qr (decomposeQR lo hi h.ge A)
    | .follow => .lq (decomposeLQ lo hi h.le A)
  else if h' : n + 1 < r + 1 then .qr (decomposeQR lo hi h'.le A)
  else .lq (decomposeLQ lo hi (not_lt.1 h') A)

variable [DecidableEq 𝕜]

/-- `d.Solve(b)` for a vector and a matrix that precedes vectors — Decompositions/DecomposeQR.hpp:83-88 for the QR case, the failing
`static_assert` at 165 for the LQ case. -/
def QRorLQ.solvePrecede (d : QRorLQ 𝕜 r n) (b : Fin r → 𝕜) : Option (Option (Fin n → 𝕜)) :=
  match d with
  | .qr d => some (qrSolveVec d b)
  | .lq _ => none

/-- `d.Solve(b)` for a vector and a matrix that follows vectors — Decompositions/DecomposeQR.hpp:162-167 for the LQ case, the failing
`static_assert` at 86 for the QR case. -/
def QRorLQ.solveFollow (d : QRorLQ 𝕜 r n) (b : Fin n → 𝕜) : Option (Option (Fin r → 𝕜)) :=
  match d with
  | .qr _ => none
  | .lq d => some (lqSolveVec d b)

/-- `d.Solve(b)` for several right-hand sides, matrices that precede vectors — Decompositions/DecomposeQR.hpp:74-79, 154-156. -/
def QRorLQ.solveManyPrecede (d : QRorLQ 𝕜 r n) (b : Matrix (Fin r) (Fin m) 𝕜) : Option (Option (Matrix (Fin n) (Fin m) 𝕜)) :=
  match d with
  | .qr d => some (qrSolve d b)
  | .lq _ => none

/-- `d.Solve(b)` for several right-hand sides, matrices that follow vectors — Decompositions/DecomposeQR.hpp:153-159, 76. The overload is
declared for right-hand sides that fit square matrices only. -/
def QRorLQ.solveManyFollow (d : QRorLQ 𝕜 n n) (b : Matrix (Fin m) (Fin n) 𝕜) : Option (Option (Matrix (Fin m) (Fin n) 𝕜)) :=
  match d with
  | .qr _ => none
  | .lq d => some (lqSolve d b)

/-- `d.Inverse()` — Decompositions/DecomposeQR.hpp:91-98, 170-174; available for either order. -/
def QRorLQ.inverse (d : QRorLQ 𝕜 r n) : Option (Matrix (Fin n) (Fin r) 𝕜) :=
  match d with
  | .qr d => qrInverse d
  | .lq d => lqInverse d

end Mathter
