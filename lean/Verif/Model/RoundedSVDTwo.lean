import Verif.Model.RoundedSVD

/-!
# Rounded evaluation of the two-sided singular value decomposition

`DecomposeSVDJacobiTwoSided` of `include/Mathter/Decompositions/DecomposeSVD.hpp` with a rounding `fl` after every operation, for real element types, with
the parameters of `Verif.Model.RoundedSVD`. `fl` has no overflow or underflow.
-/

namespace Mathter.Fl
variable {r n : ℕ}

open Classical in
/-- `DiagonalizeTriangular2x2(r11, r12, r22)` — Decompositions/DecomposeSVD.hpp:216-233. The quotient is finite exactly if its denominator is not zero. The
imaginary parts and their product `zi` are zero. -/
noncomputable def diagonalizeTriangular (fl : ℝ → ℝ) (ps : ℝ → ℝ → ℝ → ℝ → ℝ) (hyp : ℝ → ℝ → ℝ → ℝ) (neg : Bool) (r11 r12 r22 : ℝ) : ℝ × ℝ :=
  let z := ps (fl (r22 + r11)) (fl (r22 - r11)) r12 r12
  let d := fl (Real.sqrt (ps (fl (4 * fl (r11 * r11))) (fl (r12 * r12)) z z))
  if fl (r12 * r11) = 0 then (1, 0)
  else
    let u := fl (fl (1 / 2 * fl (z + copysignR neg d z)) / fl (r12 * r11))
    let scale := hyp 1 u 0
    (fl (1 / scale), fl (u / scale))

open Classical in
/-- `DecomposeRQ2x2(A)` — Decompositions/DecomposeSVD.hpp:236-267. -/
noncomputable def decomposeRQ2 (fl : ℝ → ℝ) (ps pd : ℝ → ℝ → ℝ → ℝ → ℝ) (a11 a12 a21 a22 : ℝ) : RQ2 ℝ :=
  if a21 = 0 then ⟨a11, a12, a22, 1, 0⟩
  else
    let scaleDiv := max |a21| |a22|
    let a21s := fl (a21 / scaleDiv)
    let a22s := fl (a22 / scaleDiv)
    let divisor := fl (Real.sqrt (ps a21s a21s a22s a22s))
    let cq := fl (a22s / divisor)
    let sq := fl (a21s / divisor)
    ⟨pd a11 cq a12 sq, ps a11 sq a12 cq, fl (scaleDiv * (if |a21| > |a22| then fl (a21s / sq) else fl (a22s / cq))), cq, sq⟩

/-- `DecomposeScaledOrthogonal2x2(US)` — Decompositions/DecomposeSVD.hpp:270-301: `cu, su, sign, s00, s11`, with the indices of `Mathter.scaledOrthogonal2`.
`one` is the result of the scalar `Normalize` (Common/MathUtil.hpp:25-39) of zero; that of other numbers is their sign. -/
noncomputable def scaledOrthogonal2 (fl : ℝ → ℝ) (ps : ℝ → ℝ → ℝ → ℝ → ℝ) (one us00 us01 us10 us11 : ℝ) : ℝ × ℝ × ℝ × ℝ × ℝ :=
  let mu : Fin 4 → ℝ := ![us00, us10, us01, us11]
  let maxIdx := maxIdx4 fun i => |mu i|
  let s00 := fl (Real.sqrt (ps (mu 0) (mu 0) (mu 1) (mu 1)))
  let s11 := fl (Real.sqrt (ps (mu 2) (mu 2) (mu 3) (mu 3)))
  let cuSuBase : Fin 4 → ℝ := ![fl (mu 0 / s00), fl (mu 1 / s00), fl (mu 2 / s11), fl (mu 3 / s11)]
  let signBase := fl (mu (3 - maxIdx) / mu maxIdx)
  let sign := normalizeK one (if maxIdx = 1 ∨ maxIdx = 2 then -signBase else signBase)
  let cu := if maxIdx ≤ 1 then cuSuBase 0 else fl (cuSuBase 3 * sign)
  let su := if maxIdx ≤ 1 then cuSuBase 1 else fl (-cuSuBase 2 * sign)
  (cu, su, sign, s00, s11)

/-- `DecomposeSVD2x2(A)` — Decompositions/DecomposeSVD.hpp:304-340. -/
noncomputable def decomposeSVD2 (fl : ℝ → ℝ) (ps pd : ℝ → ℝ → ℝ → ℝ → ℝ) (hyp : ℝ → ℝ → ℝ → ℝ) (zs : ZeroSigns ℝ) (a11 a12 a21 a22 : ℝ) : SVD2 ℝ :=
  let scale := max (max |a11| |a12|) (max |a21| |a22|)
  if scale = 0 then ⟨1, 0, 0, 0, 1, 0, 1⟩
  else
    let b11 := fl (a11 / scale)
    let b12 := fl (a12 / scale)
    let b21 := fl (a21 / scale)
    let b22 := fl (a22 / scale)
    let rq := decomposeRQ2 fl ps pd b11 b12 b21 b22
    let v1 := diagonalizeTriangular fl ps hyp zs.neg rq.r11 rq.r12 rq.r22
    let cv := ps rq.cq v1.1 rq.sq v1.2
    let sv := ps (-rq.sq) v1.1 rq.cq v1.2
    let v := minimizeRotation fl cv sv
    let us := scaledOrthogonal2 fl ps zs.one (ps b11 v.1 b12 v.2) (ps b11 (-v.2) b12 v.1) (ps b21 v.1 b22 v.2) (ps b21 (-v.2) b22 v.1)
    ⟨us.1, us.2.1, fl (scale * us.2.2.2.1), fl (scale * us.2.2.2.2), v.1, -v.2, us.2.2.1⟩

/-- The rotation of one pair — Decompositions/DecomposeSVD.hpp:395-400. -/
noncomputable def twoRotate (fl : ℝ → ℝ) (ps pd : ℝ → ℝ → ℝ → ℝ → ℝ) (hyp : ℝ → ℝ → ℝ → ℝ) (zs : ZeroSigns ℝ) (p q : Fin r) (s : TwoState ℝ r) :
    TwoState ℝ r :=
  let d := decomposeSVD2 fl ps pd hyp zs (s.X p p) (s.X p q) (s.X q p) (s.X q q)
  ⟨givensRight fl ps pd s.U p q d.cu d.su d.det,
    givensRight fl ps pd (givensLeft fl ps pd s.X p q d.cu (fl (-d.det * d.su)) d.det) p q d.cv (-d.sv) 1,
    givensLeft fl ps pd s.V p q d.cv d.sv 1⟩

/-- The body of the loops over `p`, `q` — Decompositions/DecomposeSVD.hpp:391-401. -/
noncomputable def twoStep (fl : ℝ → ℝ) (ps pd : ℝ → ℝ → ℝ → ℝ → ℝ) (hyp : ℝ → ℝ → ℝ → ℝ) (tolerance : ℝ) (zs : ZeroSigns ℝ) (p q : Fin r)
    (s : TwoState ℝ r × ℝ) : TwoState ℝ r × ℝ :=
  let error := max |s.1.X p q| |s.1.X q p|
  if error > tolerance then (twoRotate fl ps pd hyp zs p q s.1, max s.2 error) else s

/-- The loops over `p`, `q` — Decompositions/DecomposeSVD.hpp:388-403. -/
noncomputable def twoSweep (fl : ℝ → ℝ) (ps pd : ℝ → ℝ → ℝ → ℝ → ℝ) (hyp : ℝ → ℝ → ℝ → ℝ) (tolerance : ℝ) (zs : ℕ → Fin r → Fin r → ZeroSigns ℝ)
    (t : ℕ) (s : TwoState ℝ r) : TwoState ℝ r × ℝ :=
  forUp r 0 (fun p s => forUp r (p.val + 1) (fun q s => twoStep fl ps pd hyp tolerance (zs t p q) p q s) s) (s, 0)

/-- The initial state — Decompositions/DecomposeSVD.hpp:374-382. -/
noncomputable def twoInit (fl : ℝ → ℝ) (A : Matrix (Fin r) (Fin (n + 1)) ℝ) (scaler : ℝ) : TwoState ℝ r :=
  ⟨1, Matrix.of fun i j => if h : j.val < n + 1 then fl (A i ⟨j, h⟩ / scaler) else 0, 1⟩

/-- The end of `DecomposeSVDJacobiTwoSided` — Decompositions/DecomposeSVD.hpp:406-415. -/
noncomputable def twoFinish (fl : ℝ → ℝ) (hrn : n + 1 ≤ r) (scaler : ℝ) (s : TwoState ℝ r) : SVD ℝ r (n + 1) (n + 1) :=
  ⟨Matrix.of fun i j => s.U i (Fin.castLE hrn j), fun i => fl (s.X (Fin.castLE hrn i) (Fin.castLE hrn i) * scaler),
    Matrix.of fun i j => s.V (Fin.castLE hrn i) (Fin.castLE hrn j)⟩

/-- `DecomposeSVDJacobiTwoSided(A)` — Decompositions/DecomposeSVD.hpp:361-416. `big`, `big'` are the largest number and its predecessor. `none`: the null
matrix, or no end after `fuel` iterations. -/
noncomputable def svdTwoSided (fl : ℝ → ℝ) (ps pd : ℝ → ℝ → ℝ → ℝ → ℝ) (hyp : ℝ → ℝ → ℝ → ℝ) (tolerance big big' : ℝ)
    (zs : ℕ → Fin r → Fin r → ZeroSigns ℝ) (hrn : n + 1 ≤ r) (fuel : ℕ) (A : Matrix (Fin r) (Fin (n + 1)) ℝ) : Option (SVD ℝ r (n + 1) (n + 1)) :=
  let scaler := matScaleElements A
  if scaler = 0 then none
  else (jacobiLoop (twoSweep fl ps pd hyp tolerance zs) fuel 0 big big' (twoInit fl A scaler)).map fun x => twoFinish fl hrn scaler x.1

end Mathter.Fl
