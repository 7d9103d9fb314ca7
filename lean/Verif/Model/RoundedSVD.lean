import Verif.Model.SVD
import Verif.Model.RoundedQR

/-!
# Rounded evaluation of the one-sided singular value decomposition

The floating-point operations of `include/Mathter/Decompositions/DecomposeSVD.hpp` with a rounding `fl` after every operation, for real element types.
`fl` has no overflow or underflow. As in `Verif.Model.SVD` the order of equal singular values and the sign bits of zeros are parameters. Further parameters:
`hyp` is `std::hypot`, `ps` and `pd` are the sums and differences of two products, which may be fused, `dot` is the sum of products that makes up an element
of the Gram matrix, `len` is `Length`.
-/

namespace Mathter.Fl
variable {r n : ℕ}

/-- The values of `a * b + c * d` that the compiler may produce: separate operations, or one of the products fused with the addition.
(used in Decompositions/DecomposeSVD.hpp:204, 344-356.) -/
def IsProdSum (fl : ℝ → ℝ) (ps : ℝ → ℝ → ℝ → ℝ → ℝ) : Prop :=
  ∀ a b c d, ps a b c d = fl (fl (a * b) + fl (c * d)) ∨ ps a b c d = fl (a * b + fl (c * d)) ∨ ps a b c d = fl (fl (a * b) + c * d)

/-- `std::hypot` with relative error `w`. (used in Decompositions/DecomposeSVD.hpp:196, 227.) -/
def IsHypot (w : ℝ) (hyp : ℝ → ℝ → ℝ → ℝ) : Prop :=
  ∀ x y z, |hyp x y z - Real.sqrt (x ^ 2 + y ^ 2 + z ^ 2)| ≤ w * Real.sqrt (x ^ 2 + y ^ 2 + z ^ 2)

/-- `MinimizeDiagonalizingRotation(cv, sv)` — Decompositions/DecomposeSVD.hpp:160-178. -/
noncomputable def minimizeRotation (fl : ℝ → ℝ) (cv sv : ℝ) : ℝ × ℝ :=
  let p : ℝ × ℝ := if |cv| < |sv| then (-sv, cv) else (cv, sv)
  let cvMag : ℝ := if |cv| < |sv| then |sv| else |cv|
  let q := fl (p.1 / cvMag)
  (fl (q * p.1), fl (q * p.2))

/-- `Lma11` in `DiagonalizeHermitian2x2` — Decompositions/DecomposeSVD.hpp:195-197. -/
noncomputable def hermitianRoot (fl : ℝ → ℝ) (hyp : ℝ → ℝ → ℝ → ℝ) (neg : Bool) (a11 aoff a22 : ℝ) : ℝ :=
  let z := fl (a22 - a11)
  let d := hyp z (fl (2 * aoff)) 0
  fl (1 / 2 * fl (z + copysignR neg d z))

open Classical in
/-- `DiagonalizeHermitian2x2(a11, aoff, a22)` — Decompositions/DecomposeSVD.hpp:186-208. The divisor is never zero (C104). -/
noncomputable def diagonalizeHermitian (fl : ℝ → ℝ) (ps : ℝ → ℝ → ℝ → ℝ → ℝ) (hyp : ℝ → ℝ → ℝ → ℝ) (neg : Bool) (a11 aoff a22 : ℝ) : ℝ × ℝ :=
  if aoff = 0 then (1, 0)
  else
    let Lma11 := hermitianRoot fl hyp neg a11 aoff a22
    let cv := fl (aoff / Lma11)
    let sv := 1
    let scale := fl (Real.sqrt (ps cv cv sv sv))
    (fl (cv / scale), fl (sv / scale))

/-- `GivensRotateRight(m, p, q, cv, sv, det)` — Decompositions/DecomposeSVD.hpp:343-349. -/
noncomputable def givensRight (fl : ℝ → ℝ) (ps pd : ℝ → ℝ → ℝ → ℝ → ℝ) (m : Matrix (Fin r) (Fin n) ℝ) (p q : Fin n) (cv sv det : ℝ) :
    Matrix (Fin r) (Fin n) ℝ :=
  Matrix.of fun i j => if j = q then fl (det * pd (m i q) cv (m i p) sv) else if j = p then ps (m i p) cv (m i q) sv else m i j

/-- `GivensRotateLeft(m, p, q, cv, sv, det)` — Decompositions/DecomposeSVD.hpp:352-358. -/
noncomputable def givensLeft (fl : ℝ → ℝ) (ps pd : ℝ → ℝ → ℝ → ℝ → ℝ) (m : Matrix (Fin r) (Fin n) ℝ) (p q : Fin r) (cv sv det : ℝ) :
    Matrix (Fin r) (Fin n) ℝ :=
  Matrix.of fun i j => if i = q then ps (fl (det * m q j)) cv (m p j) sv else if i = p then pd (m p j) cv (fl (det * m q j)) sv else m i j

/-- The rotation of one pair — Decompositions/DecomposeSVD.hpp:450, 454-458, with `TransposeMultiplyPartial` of lines 419-425. -/
noncomputable def oneRotate (fl : ℝ → ℝ) (ps pd : ℝ → ℝ → ℝ → ℝ → ℝ) (hyp : ℝ → ℝ → ℝ → ℝ) (dot : (Fin r → ℝ) → (Fin r → ℝ) → ℝ) (neg : Bool)
    (p q : Fin n) (s : OneState ℝ r n) : OneState ℝ r n :=
  let col := fun j i => s.X i j
  let v0 := diagonalizeHermitian fl ps hyp neg (dot (col p) (col p)) (dot (col p) (col q)) (dot (col q) (col q))
  let v := minimizeRotation fl v0.1 v0.2
  ⟨givensRight fl ps pd s.X p q v.1 v.2 1, givensLeft fl ps pd s.V p q v.1 (-v.2) 1⟩

open Classical in
/-- The body of the loops over `p`, `q` — Decompositions/DecomposeSVD.hpp:450-459. -/
noncomputable def oneStep (fl : ℝ → ℝ) (ps pd : ℝ → ℝ → ℝ → ℝ → ℝ) (hyp : ℝ → ℝ → ℝ → ℝ) (dot : (Fin r → ℝ) → (Fin r → ℝ) → ℝ) (neg : Bool)
    (p q : Fin n) (s : OneState ℝ r n × ℝ) : OneState ℝ r n × ℝ :=
  let error := |dot (fun i => s.1.X i p) fun i => s.1.X i q|
  if error ≠ 0 then (oneRotate fl ps pd hyp dot neg p q s.1, max s.2 error) else s

/-- The loops over `p`, `q` — Decompositions/DecomposeSVD.hpp:447-461. -/
noncomputable def oneSweep (fl : ℝ → ℝ) (ps pd : ℝ → ℝ → ℝ → ℝ → ℝ) (hyp : ℝ → ℝ → ℝ → ℝ) (dot : (Fin r → ℝ) → (Fin r → ℝ) → ℝ)
    (neg : ℕ → Fin n → Fin n → Bool) (t : ℕ) (s : OneState ℝ r n) : OneState ℝ r n × ℝ :=
  forUp n 0 (fun p s => forUp n (p.val + 1) (fun q s => oneStep fl ps pd hyp dot (neg t p q) p q s) s) (s, 0)

/-- The initial state — Decompositions/DecomposeSVD.hpp:440-441. -/
noncomputable def oneInit (fl : ℝ → ℝ) (A : Matrix (Fin r) (Fin n) ℝ) (scaler : ℝ) : OneState ℝ r n := ⟨Matrix.of fun i j => fl (A i j / scaler), 1⟩

open Classical in
/-- The end of `DecomposeSVDJacobiOneSided` — Decompositions/DecomposeSVD.hpp:464-512. `σ i` is the index that `std::sort` has put at place `i`; `neg i` is
the sign bit of `R(i, i)` if that is zero; `qr` is `DecomposeQR`, `sqrtEps` the square root of the machine epsilon. -/
noncomputable def oneFinish (fl : ℝ → ℝ) (len : (Fin r → ℝ) → ℝ) (qr : Matrix (Fin r) (Fin (n + 1)) ℝ → QR ℝ r (n + 1)) (sqrtEps : ℝ)
    (neg : Fin (n + 1) → Bool) (σ : Equiv.Perm (Fin (n + 1))) (scaler : ℝ) (s : OneState ℝ r (n + 1)) : SVD ℝ r (n + 1) (n + 1) :=
  let S : Fin (n + 1) → ℝ := fun i => len fun j => s.X j (σ i)
  let V := Matrix.of fun i j => s.V (σ i) j
  let X := Matrix.of fun j i => if S i ≠ 0 then fl (s.X j (σ i) / S i) else s.X j (σ i)
  let threshold := fl (S 0 * sqrtEps)
  let numOver := (Finset.univ.filter fun i => S i ≥ threshold).card
  if numOver ≠ n + 1 then
    let d := qr X
    ⟨d.Q, fun i => fl (copysignR (neg i) (S i) (d.R i i) * scaler), V⟩
  else ⟨X, fun i => fl (S i * scaler), V⟩

/-- `DecomposeSVDJacobiOneSided(A)` — Decompositions/DecomposeSVD.hpp:428-513. `none`: the null matrix, or no end after `fuel` iterations. -/
noncomputable def svdOneSided (fl : ℝ → ℝ) (ps pd : ℝ → ℝ → ℝ → ℝ → ℝ) (hyp : ℝ → ℝ → ℝ → ℝ) (dot : (Fin (r + 1) → ℝ) → (Fin (r + 1) → ℝ) → ℝ)
    (len : (Fin (r + 1) → ℝ) → ℝ) (qr : Matrix (Fin (r + 1)) (Fin (n + 1)) ℝ → QR ℝ (r + 1) (n + 1)) (sqrtEps big big' : ℝ)
    (negS : ℕ → Fin (n + 1) → Fin (n + 1) → Bool) (neg : Fin (n + 1) → Bool) (σ : Equiv.Perm (Fin (n + 1))) (fuel : ℕ)
    (A : Matrix (Fin (r + 1)) (Fin (n + 1)) ℝ) : Option (SVD ℝ (r + 1) (n + 1) (n + 1)) :=
  let scaler := matScaleElements A
  if scaler = 0 then none
  else (jacobiLoop (oneSweep fl ps pd hyp dot negS) fuel 0 big big' (oneInit fl A scaler)).map fun x =>
    oneFinish fl len qr sqrtEps neg σ scaler x.1

end Mathter.Fl
