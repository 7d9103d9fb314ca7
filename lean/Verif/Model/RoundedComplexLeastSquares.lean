import Verif.Model.RoundedComplexQR

/-!
# Rounded evaluation of `DecompositionQR::Solve` for complex matrices

`dq` is the division of complex numbers; the other parameters are those of `Model/RoundedComplexMatrix` and `Model/RoundedComplexLinear`.
-/

namespace Mathter.Fl
variable {r n m : ℕ}

/-- `DecompositionQR::Solve(b)` — Decompositions/DecomposeQR.hpp:75-80, 101-105: `SolveUpperTriangular(R, ConjTranspose(Q) * b)`, where the product is the one of the
storage level; `m0`, `t0`, `t1` are the indeterminate contents of the results. Conjugation does not round. -/
noncomputable def qrSolveC {c : Cfg} {L L' : Layout} {p1 p2 : Bool} [NeZero r] (fl : ℝ → ℝ) (ps pd : ℝ → ℝ → ℝ → ℝ → ℝ) (op : ℂ → ℂ → ℂ → ℂ) (dq : ℂ → ℂ → ℂ)
    (conv : Bool) (tb : RTree (batchSize r false)) (ts : RTree (r + 1)) (t0 t1 : Mat c ℂ n r .precede L p1) (m0 : Mat c ℂ n m .precede L (p1 && p2))
    (Q : Mat c ℂ r n .precede L p1) (R : Matrix (Fin n) (Fin n) ℂ) (b : Mat c ℂ r m .precede L' p2) : Option (Matrix (Fin n) (Fin m) ℂ) :=
  solveUpperC dq (mulSubC fl ps pd) R (Matrix.of (matMulC fl (prodC ps pd) op conv tb ts m0 (Mat.conjTranspose conv t0 t1 Q) b).get)

end Mathter.Fl
