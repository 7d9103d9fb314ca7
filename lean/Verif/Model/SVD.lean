import Verif.Model.QR
import Mathlib.Data.Matrix.Mul
import Mathlib.LinearAlgebra.Matrix.Notation

/-!
# Singular value decomposition

Models `include/Mathter/Decompositions/DecomposeSVD.hpp` at element level over `𝕜 = ℝ` or `ℂ` in exact arithmetic.

What exact arithmetic does not determine is a parameter over which the theorems quantify: the sign bits of zeros (`ZeroSigns`, one for
every call), the machine epsilon, the largest number, the order of equal singular values after `std::sort`. The storage types of the working
matrices (column-major `U`, row-major `V`) do not matter at element level. Prescaling and the square root of `std::norm` are modelled;
`std::hypot` is the square root of the sum of squares.
-/

namespace Mathter
universe u
variable {𝕜 : Type u} [RCLike 𝕜] {r n m k : ℕ}

/-- The signs that zeros happen to have in one call of a 2x2 kernel: `neg` is the sign bit of the first argument of the `copysign` whose
second argument is zero, `one` the result of the scalar `Normalize` (Common/MathUtil.hpp:25-39) of zero: ±1 for reals, 1 for complex
numbers. -/
structure ZeroSigns (𝕜 : Type u) [RCLike 𝕜] where
  neg : Bool
  one : 𝕜
  norm_one : ‖one‖ = 1

/-- `std::copysign(d, z)` — for `z = 0` the sign bit `neg`. (used in Decompositions/DecomposeSVD.hpp:197, 224, 506.) -/
noncomputable def copysignR (neg : Bool) (d z : ℝ) : ℝ := if z < 0 ∨ (z = 0 ∧ neg = true) then -|d| else |d|

/-- The scalar `Normalize` — Common/MathUtil.hpp:25-39, see C70. -/
noncomputable def normalizeK (one : 𝕜) (x : 𝕜) : 𝕜 :=
  open Classical in if x = 0 then one else x / ((‖x‖ : ℝ) : 𝕜)

/-- `ScaleElements(x)` of a scalar — DecomposeSVD.hpp:105-120. -/
noncomputable def scaleElt (x : 𝕜) : ℝ := max |RCLike.re x| |RCLike.im x|

/-- `MinimizeDiagonalizingRotation(cv, sv)` — DecomposeSVD.hpp:160-178. -/
noncomputable def minimizeRotation (cv sv : 𝕜) : 𝕜 × 𝕜 :=
  let p : 𝕜 × 𝕜 := if ‖cv‖ < ‖sv‖ then (-star sv, star cv) else (cv, sv)
  let cvMag : ℝ := if ‖cv‖ < ‖sv‖ then ‖sv‖ else ‖cv‖
  let q := star (p.1 / (cvMag : 𝕜))
  (q * p.1, q * p.2)

/-- `Lma11` in `DiagonalizeHermitian2x2` — DecomposeSVD.hpp:195-197. -/
noncomputable def hermitianRoot (neg : Bool) (a11 : ℝ) (aoff : 𝕜) (a22 : ℝ) : ℝ :=
  let z := a22 - a11
  let d := Real.sqrt (z ^ 2 + (2 * RCLike.re aoff) ^ 2 + (2 * RCLike.im aoff) ^ 2)
  1 / 2 * (z + copysignR neg d z)

/-- `DiagonalizeHermitian2x2(a11, aoff, a22)` — DecomposeSVD.hpp:186-208. The assertion of line 201 is proved never to fail (C41). -/
noncomputable def diagonalizeHermitian (neg : Bool) (a11 : ℝ) (aoff : 𝕜) (a22 : ℝ) : 𝕜 × 𝕜 :=
  open Classical in
  if aoff = 0 then (1, 0)
  else
    let Lma11 := hermitianRoot neg a11 aoff a22
    let cv : 𝕜 := aoff / (Lma11 : 𝕜)
    let sv : 𝕜 := 1
    let scale := Real.sqrt (‖cv‖ ^ 2 + ‖sv‖ ^ 2)
    (cv / (scale : 𝕜), sv / (scale : 𝕜))

/-- `DiagonalizeTriangular2x2(r11, r12, r22)` — DecomposeSVD.hpp:216-233. The quotient is finite exactly if its denominator is not zero. -/
noncomputable def diagonalizeTriangular (neg : Bool) (r11 r12 r22 : 𝕜) : 𝕜 × 𝕜 :=
  open Classical in
  let zr := (RCLike.re r22 + RCLike.re r11) * (RCLike.re r22 - RCLike.re r11)
  let zi := (RCLike.im r22 + RCLike.im r11) * (RCLike.im r22 - RCLike.im r11)
  let z := zr + zi + ‖r12‖ ^ 2
  let d := Real.sqrt (4 * ‖r11‖ ^ 2 * ‖r12‖ ^ 2 + z * z)
  if r12 * star r11 = 0 then (1, 0)
  else
    let u : 𝕜 := ((1 / 2 * (z + copysignR neg d z) : ℝ) : 𝕜) / (r12 * star r11)
    let scale := Real.sqrt (1 + RCLike.re u ^ 2 + RCLike.im u ^ 2)
    (((1 / scale : ℝ) : 𝕜), u / (scale : 𝕜))

/-- `DecompositionRQ2x2` — DecomposeSVD.hpp:122-134. -/
structure RQ2 (𝕜 : Type u) where
  r11 : 𝕜
  r12 : 𝕜
  r22 : 𝕜
  cq : 𝕜
  sq : 𝕜

/-- `DecomposeRQ2x2(A)` — DecomposeSVD.hpp:236-267. -/
noncomputable def decomposeRQ2 (a11 a12 a21 a22 : 𝕜) : RQ2 𝕜 :=
  open Classical in
  if a21 = 0 then ⟨a11, a12, a22, 1, 0⟩
  else
    let scaleA21 := scaleElt a21
    let scaleA22 := scaleElt a22
    let scaleDiv := max scaleA21 scaleA22
    let a21s := a21 / (scaleDiv : 𝕜)
    let a22s := a22 / (scaleDiv : 𝕜)
    let divisor := Real.sqrt (‖a21s‖ ^ 2 + ‖a22s‖ ^ 2)
    let cq := star (a22s / (divisor : 𝕜))
    let sq := a21s / (divisor : 𝕜)
    ⟨a11 * star cq - a12 * sq, a11 * star sq + a12 * cq, (scaleDiv : 𝕜) * (if scaleA21 > scaleA22 then a21s / sq else a22s / star cq), cq, sq⟩

/-- `std::max_element` over the four magnitudes — DecomposeSVD.hpp:282-283: the first of the largest. -/
noncomputable def maxIdx4 (s : Fin 4 → ℝ) : Fin 4 := forUp 4 1 (fun i best => if s best < s i then i else best) 0

/-- `DecomposeScaledOrthogonal2x2(US)` — DecomposeSVD.hpp:270-301: `cu, su, sign, s00, s11`. The index expressions
`(maxIdx & 2) ^ (maxIdx >> 1)` and `(maxIdx | 1) ^ (maxIdx >> 1)` of lines 289-290 are 0 and 1 for `maxIdx <= 1`, 3 and 2 otherwise;
`maxIdx ^ 3` is `3 - maxIdx`. -/
noncomputable def scaledOrthogonal2 (one : 𝕜) (us00 us01 us10 us11 : 𝕜) : 𝕜 × 𝕜 × 𝕜 × ℝ × ℝ :=
  let mu : Fin 4 → 𝕜 := ![us00, us10, us01, us11]
  let maxIdx := maxIdx4 fun i => scaleElt (mu i)
  let s00 := Real.sqrt (‖mu 0‖ ^ 2 + ‖mu 1‖ ^ 2)
  let s11 := Real.sqrt (‖mu 2‖ ^ 2 + ‖mu 3‖ ^ 2)
  let cuSuBase : Fin 4 → 𝕜 := ![mu 0 / (s00 : 𝕜), mu 1 / (s00 : 𝕜), mu 2 / (s11 : 𝕜), mu 3 / (s11 : 𝕜)]
  let signBase := mu (3 - maxIdx) / star (mu maxIdx)
  let sign := normalizeK one (if maxIdx = 1 ∨ maxIdx = 2 then -signBase else signBase)
  let cu := if maxIdx ≤ 1 then cuSuBase 0 else star (cuSuBase 3) * sign
  let su := if maxIdx ≤ 1 then cuSuBase 1 else -star (cuSuBase 2) * sign
  (cu, su, sign, s00, s11)

/-- `DecompositionSVD2x2` — DecomposeSVD.hpp:136-152. -/
structure SVD2 (𝕜 : Type u) where
  cu : 𝕜
  su : 𝕜
  s11 : ℝ
  s22 : ℝ
  cv : 𝕜
  sv : 𝕜
  det : 𝕜

/-- `DecomposeSVD2x2(A)` — DecomposeSVD.hpp:304-340. -/
noncomputable def decomposeSVD2 (zs : ZeroSigns 𝕜) (a11 a12 a21 a22 : 𝕜) : SVD2 𝕜 :=
  let scale := max (max (scaleElt a11) (scaleElt a12)) (max (scaleElt a21) (scaleElt a22))
  if scale = 0 then ⟨1, 0, 0, 0, 1, 0, 1⟩
  else
    let b11 := a11 / (scale : 𝕜)
    let b12 := a12 / (scale : 𝕜)
    let b21 := a21 / (scale : 𝕜)
    let b22 := a22 / (scale : 𝕜)
    let rq := decomposeRQ2 b11 b12 b21 b22
    let v1 := diagonalizeTriangular zs.neg rq.r11 rq.r12 rq.r22
    let cv := star rq.cq * v1.1 + star rq.sq * v1.2
    let sv := -rq.sq * v1.1 + rq.cq * v1.2
    let v := minimizeRotation cv sv
    let us := scaledOrthogonal2 zs.one (b11 * v.1 + b12 * v.2) (b11 * -star v.2 + b12 * star v.1)
      (b21 * v.1 + b22 * v.2) (b21 * -star v.2 + b22 * star v.1)
    ⟨us.1, us.2.1, scale * us.2.2.2.1, scale * us.2.2.2.2, star v.1, -v.2, us.2.2.1⟩

/-- `GivensRotateRight(m, p, q, cv, sv, det)` — DecomposeSVD.hpp:343-349. -/
def givensRight (m : Matrix (Fin r) (Fin n) 𝕜) (p q : Fin n) (cv sv det : 𝕜) : Matrix (Fin r) (Fin n) 𝕜 :=
  Matrix.of fun i j => if j = q then det * (m i q * star cv - m i p * star sv) else if j = p then m i p * cv + m i q * sv else m i j

/-- `GivensRotateLeft(m, p, q, cv, sv, det)` — DecomposeSVD.hpp:352-358. -/
def givensLeft (m : Matrix (Fin r) (Fin n) 𝕜) (p q : Fin r) (cv sv det : 𝕜) : Matrix (Fin r) (Fin n) 𝕜 :=
  Matrix.of fun i j => if i = q then det * m q j * star cv + m p j * sv else if i = p then m p j * cv - det * m q j * star sv else m i j

/-- The `while` loop of both algorithms — DecomposeSVD.hpp:384-404, 443-462: `sweep` is the loop body, which also gives the new `maxError`;
the result is the state and the last `maxError`, or `none` if the loop has not ended after `fuel` iterations. -/
noncomputable def jacobiLoop {σ : Type*} (sweep : ℕ → σ → σ × ℝ) : ℕ → ℕ → ℝ → ℝ → σ → Option (σ × ℝ)
  | 0, _, _, _, _ => none
  | fuel + 1, t, prev, err, s =>
    if err < prev then
      let x := sweep t s
      jacobiLoop sweep fuel (t + 1) err x.2 x.1
    else some (s, err)

/-- `U`, `S`, `V` of `DecompositionSVD` — DecomposeSVD.hpp:19-28. -/
structure SVD (𝕜 : Type u) (r k n : ℕ) where
  U : Matrix (Fin r) (Fin k) 𝕜
  S : Fin k → ℝ
  V : Matrix (Fin k) (Fin n) 𝕜

/-! ## Two-sided -/

/-- The working matrices of `DecomposeSVDJacobiTwoSided`. (Decompositions/DecomposeSVD.hpp:362-425.) -/
structure TwoState (𝕜 : Type u) (r : ℕ) where
  U : Matrix (Fin r) (Fin r) 𝕜
  X : Matrix (Fin r) (Fin r) 𝕜
  V : Matrix (Fin r) (Fin r) 𝕜

/-- The rotation of one pair — DecomposeSVD.hpp:395-400. -/
noncomputable def twoRotate (zs : ZeroSigns 𝕜) (p q : Fin r) (s : TwoState 𝕜 r) : TwoState 𝕜 r :=
  let d := decomposeSVD2 zs (s.X p p) (s.X p q) (s.X q p) (s.X q q)
  ⟨givensRight s.U p q d.cu d.su d.det,
    givensRight (givensLeft s.X p q (star d.cu) (-star d.det * d.su) (star d.det)) p q (star d.cv) (-d.sv) 1,
    givensLeft s.V p q d.cv d.sv 1⟩

/-- The body of the loops over `p`, `q` — DecomposeSVD.hpp:391-401. -/
noncomputable def twoStep (tolerance : ℝ) (zs : ZeroSigns 𝕜) (p q : Fin r) (s : TwoState 𝕜 r × ℝ) : TwoState 𝕜 r × ℝ :=
  let error := max (scaleElt (s.1.X p q)) (scaleElt (s.1.X q p))
  if error > tolerance then (twoRotate zs p q s.1, max s.2 error) else s

/-- The loops over `p`, `q` — DecomposeSVD.hpp:388-403. -/
noncomputable def twoSweep (tolerance : ℝ) (zs : ℕ → Fin r → Fin r → ZeroSigns 𝕜) (t : ℕ) (s : TwoState 𝕜 r) : TwoState 𝕜 r × ℝ :=
  forUp r 0 (fun p s => forUp r (p.val + 1) (fun q s => twoStep tolerance (zs t p q) p q s) s) (s, 0)

/-- The initial state — DecomposeSVD.hpp:374-382. -/
noncomputable def twoInit (A : Matrix (Fin r) (Fin (n + 1)) 𝕜) (scaler : ℝ) : TwoState 𝕜 r :=
  ⟨1, Matrix.of fun i j => if h : j.val < n + 1 then A i ⟨j, h⟩ / (scaler : 𝕜) else 0, 1⟩

/-- `DecomposeSVDJacobiTwoSided(A)` — DecomposeSVD.hpp:361-416. `big`, `big'` are the largest number and its predecessor. `none`: division by
zero, or no end after `fuel` iterations. -/
noncomputable def svdTwoSided (tolerance big big' : ℝ) (zs : ℕ → Fin r → Fin r → ZeroSigns 𝕜) (hrn : n + 1 ≤ r) (fuel : ℕ)
    (A : Matrix (Fin r) (Fin (n + 1)) 𝕜) : Option (SVD 𝕜 r (n + 1) (n + 1)) :=
  let scaler := matScaleElements A
  if scaler = 0 then none
  else
    (jacobiLoop (twoSweep tolerance zs) fuel 0 big big' (twoInit A scaler)).map fun x =>
      ⟨Matrix.of fun i j => x.1.U i (Fin.castLE hrn j), fun i => RCLike.re (x.1.X (Fin.castLE hrn i) (Fin.castLE hrn i)) * scaler,
        Matrix.of fun i j => x.1.V (Fin.castLE hrn i) (Fin.castLE hrn j)⟩

/-! ## One-sided -/

/-- The working matrices of `DecomposeSVDJacobiOneSided`. (Decompositions/DecomposeSVD.hpp:429-512.) -/
structure OneState (𝕜 : Type u) (r n : ℕ) where
  X : Matrix (Fin r) (Fin n) 𝕜
  V : Matrix (Fin n) (Fin n) 𝕜

/-- An element of `ConjTranspose(m) * m` — `TransposeMultiplyPartial`, DecomposeSVD.hpp:419-425. `Sum` is the reduction of C03. -/
noncomputable def gramElt (X : Matrix (Fin r) (Fin n) 𝕜) (p q : Fin n) : 𝕜 := ∑ i, star (X i p) * X i q

/-- The rotation of one pair — DecomposeSVD.hpp:450, 454-458. -/
noncomputable def oneRotate (neg : Bool) (p q : Fin n) (s : OneState 𝕜 r n) : OneState 𝕜 r n :=
  let v0 := diagonalizeHermitian neg (RCLike.re (gramElt s.X p p)) (gramElt s.X p q) (RCLike.re (gramElt s.X q q))
  let v := minimizeRotation v0.1 v0.2
  ⟨givensRight s.X p q v.1 v.2 1, givensLeft s.V p q v.1 (-v.2) 1⟩

/-- The body of the loops over `p`, `q` — DecomposeSVD.hpp:450-459. -/
noncomputable def oneStep (neg : Bool) (p q : Fin n) (s : OneState 𝕜 r n × ℝ) : OneState 𝕜 r n × ℝ :=
  open Classical in
  let error := ‖gramElt s.1.X p q‖
  if error ≠ 0 then (oneRotate neg p q s.1, max s.2 error) else s

/-- The loops over `p`, `q` — DecomposeSVD.hpp:447-461. -/
noncomputable def oneSweep (neg : ℕ → Fin n → Fin n → Bool) (t : ℕ) (s : OneState 𝕜 r n) : OneState 𝕜 r n × ℝ :=
  forUp n 0 (fun p s => forUp n (p.val + 1) (fun q s => oneStep (neg t p q) p q s) s) (s, 0)

/-- The initial state — DecomposeSVD.hpp:440-441. -/
noncomputable def oneInit (A : Matrix (Fin r) (Fin n) 𝕜) (scaler : ℝ) : OneState 𝕜 r n := ⟨Matrix.of fun i j => A i j / (scaler : 𝕜), 1⟩

/-- The end of `DecomposeSVDJacobiOneSided` — DecomposeSVD.hpp:464-512. `σ i` is the index that `std::sort` has put at place `i`; `neg i` is
the sign bit of the real part of `R(i, i)` if that is zero; `lo`, `hi` are the parameters of `DecomposeQR`. -/
noncomputable def oneFinish (lo hi eps : ℝ) (neg : Fin (n + 1) → Bool) (σ : Equiv.Perm (Fin (n + 1))) (hrn : n + 1 ≤ r + 1) (scaler : ℝ)
    (s : OneState 𝕜 (r + 1) (n + 1)) : SVD 𝕜 (r + 1) (n + 1) (n + 1) :=
  open Classical in
  let S : Fin (n + 1) → ℝ := fun i => length fun j => s.X j (σ i)
  let V := Matrix.of fun i j => s.V (σ i) j
  let X := Matrix.of fun j i => if S i ≠ 0 then s.X j (σ i) / (S i : 𝕜) else s.X j (σ i)
  let threshold := S 0 * Real.sqrt eps
  let numOver := (Finset.univ.filter fun i => S i ≥ threshold).card
  if numOver ≠ n + 1 then
    let d := decomposeQR lo hi hrn X
    ⟨d.Q, fun i => copysignR (neg i) (S i) (RCLike.re (d.R i i)) * scaler, V⟩
  else ⟨X, fun i => S i * scaler, V⟩

/-- `DecomposeSVDJacobiOneSided(A)` — DecomposeSVD.hpp:428-513. -/
noncomputable def svdOneSided (lo hi eps big big' : ℝ) (negS : ℕ → Fin (n + 1) → Fin (n + 1) → Bool) (neg : Fin (n + 1) → Bool)
    (σ : Equiv.Perm (Fin (n + 1))) (hrn : n + 1 ≤ r + 1) (fuel : ℕ) (A : Matrix (Fin (r + 1)) (Fin (n + 1)) 𝕜) :
    Option (SVD 𝕜 (r + 1) (n + 1) (n + 1)) :=
  let scaler := matScaleElements A
  if scaler = 0 then none
  else (jacobiLoop (oneSweep negS) fuel 0 big big' (oneInit A scaler)).map fun x => oneFinish lo hi eps neg σ hrn scaler x.1

/-! ## Wide matrices, solving -/

/-- The wide case of `DecomposeSVD` — DecomposeSVD.hpp:542-545: the decomposition of the transpose (`FlipLayoutAndOrder`, C21), transposed. -/
def svdFlip (d : SVD 𝕜 n k r) : SVD 𝕜 r k n := ⟨d.V.transpose, d.S, d.U.transpose⟩

/-- `DecompositionSVD::Solve(b)` for `PRECEDE_VECTOR` — DecomposeSVD.hpp:61-68. The loop runs over `Columns` although `X` and `S` have
`PDim = k` rows. `none`: index out of range or division by zero. -/
noncomputable def svdSolvePrecede (d : SVD 𝕜 r k n) (b : Matrix (Fin r) (Fin m) 𝕜) : Option (Matrix (Fin n) (Fin m) 𝕜) :=
  open Classical in
  let X := d.U.conjTranspose * b
  (forUp n 0 (fun row (X : Option (Matrix (Fin k) (Fin m) 𝕜)) => X.bind fun X =>
    if h : row.val < k then
      if d.S ⟨row, h⟩ = 0 then none else some (Matrix.of fun i j => if i.val = row.val then X ⟨row, h⟩ j / (d.S ⟨row, h⟩ : 𝕜) else X i j)
    else none) (some X)).map fun X => d.V.conjTranspose * X

/-- `DecompositionSVD::Solve(b)` for `FOLLOW_VECTOR` — DecomposeSVD.hpp:69-76. The loop runs over `Rows`. -/
noncomputable def svdSolveFollow (d : SVD 𝕜 r k n) (b : Matrix (Fin m) (Fin n) 𝕜) : Option (Matrix (Fin m) (Fin r) 𝕜) :=
  open Classical in
  let X := b * d.V.conjTranspose
  (forUp r 0 (fun col (X : Option (Matrix (Fin m) (Fin k) 𝕜)) => X.bind fun X =>
    if h : col.val < k then
      if d.S ⟨col, h⟩ = 0 then none else some (Matrix.of fun i j => if j.val = col.val then X i ⟨col, h⟩ / (d.S ⟨col, h⟩ : 𝕜) else X i j)
    else none) (some X)).map fun X => X * d.U.conjTranspose

/-- `DecompositionSVD::Inverse()` — DecomposeSVD.hpp:92-100. -/
noncomputable def svdInverse (d : SVD 𝕜 r k n) : Option (Matrix (Fin n) (Fin r) 𝕜) :=
  open Classical in
  let Xi := d.V.conjTranspose
  (forUp k 0 (fun i (Xi : Option (Matrix (Fin n) (Fin k) 𝕜)) => Xi.bind fun Xi =>
    if d.S i = 0 then none else some (Matrix.of fun a j => if j = i then Xi a i / (d.S i : 𝕜) else Xi a j)) (some Xi)).map fun Xi =>
      Xi * d.U.conjTranspose

end Mathter
