import Verif.Model.Ieee
import Verif.Model.SVD

/-!
# The singular value decompositions on floating-point values with infinities and NaN

Models the loops of `include/Mathter/Decompositions/DecomposeSVD.hpp` for real floating-point element types with all their values (`Fx`). `ps` and `pd` are
the sums and differences of two products, which may be fused; `hyp` is `std::hypot`. Assertions are disabled (`NDEBUG`): the one in
`DiagonalizeHermitian2x2` fails for NaN. In the two-sided algorithm the kernel `DecomposeSVD2x2` is a parameter.
-/

namespace Mathter

namespace Fx

/-- `std::copysign(d, z)`; `neg` is the sign bit of a zero or NaN `z`. (used in Decompositions/DecomposeSVD.hpp:197, 506.) -/
noncomputable def copysign (neg : Bool) (d z : Fx) : Fx :=
  let minus := match z with
    | .nan => neg
    | .inf s => s
    | .fin x => if x = 0 then neg else decide (x < 0)
  if minus then d.abs.neg else d.abs

end Fx

namespace Ie
variable {c : Cfg} {r n : ℕ} {p1 : Bool}

/-- `ScaleElements(first, second)` of two real numbers — Decompositions/DecomposeSVD.hpp:106-120. -/
noncomputable def scalePair (a b : Fx) : Fx := Fx.stdMax a.abs b.abs

/-- `ScaleElements(m)` — Matrix/Math.hpp:42-51, over the stripes of a matrix of layout `L`. -/
noncomputable def matScale (c : Cfg) (p1 : Bool) (bmax : Fx → Fx → Fx) (conv : Bool) (tr : RTree (batchSize (n + 1) false))
    (tc : RTree (batchSize (r + 1) false)) (L : Layout) (A : Matrix (Fin (r + 1)) (Fin (n + 1)) Fx) : Fx :=
  match L with
  | .row => forUp (r + 1) 0 (fun i scale => Fx.stdMax scale (scaleElements bmax conv tr (Vec.ofFn (A i) : Vec c Fx (n + 1) p1))) (.fin 0)
  | .col => forUp (n + 1) 0 (fun j scale => Fx.stdMax scale (scaleElements bmax conv tc (Vec.ofFn (fun i => A i j) : Vec c Fx (r + 1) p1))) (.fin 0)

/-- `GivensRotateRight(m, p, q, cv, sv, det)` — Decompositions/DecomposeSVD.hpp:343-349. -/
noncomputable def givensRight (fl : ℝ → Fx) (ps pd : Fx → Fx → Fx → Fx → Fx) (m : Matrix (Fin r) (Fin n) Fx) (p q : Fin n) (cv sv det : Fx) :
    Matrix (Fin r) (Fin n) Fx :=
  Matrix.of fun i j => if j = q then Fx.mul fl det (pd (m i q) cv (m i p) sv) else if j = p then ps (m i p) cv (m i q) sv else m i j

/-- `GivensRotateLeft(m, p, q, cv, sv, det)` — Decompositions/DecomposeSVD.hpp:352-358. -/
noncomputable def givensLeft (fl : ℝ → Fx) (ps pd : Fx → Fx → Fx → Fx → Fx) (m : Matrix (Fin r) (Fin n) Fx) (p q : Fin r) (cv sv det : Fx) :
    Matrix (Fin r) (Fin n) Fx :=
  Matrix.of fun i j => if i = q then ps (Fx.mul fl det (m q j)) cv (m p j) sv else if i = p then pd (m p j) cv (Fx.mul fl det (m q j)) sv else m i j

/-- The `while` loop of both algorithms — Decompositions/DecomposeSVD.hpp:384-404, 443-462; as `Mathter.jacobiLoop`. -/
noncomputable def jacobiLoop {σ : Type*} (sweep : σ → σ × Fx) : ℕ → Fx → Fx → σ → Option σ
  | 0, _, _, _ => none
  | fuel + 1, prev, err, s =>
    if Fx.lt err prev then
      let x := sweep s
      jacobiLoop sweep fuel err x.2 x.1
    else some s

/-! ## Two-sided -/

/-- What the kernel `DecomposeSVD2x2` returns of the rotations — Decompositions/DecomposeSVD.hpp:144-153. -/
structure Kernel where
  cu : Fx
  su : Fx
  cv : Fx
  sv : Fx
  det : Fx

/-- The body of the loops over `p`, `q` — Decompositions/DecomposeSVD.hpp:391-401. `k` is the kernel. -/
noncomputable def twoStep (fl : ℝ → Fx) (ps pd : Fx → Fx → Fx → Fx → Fx) (k : Fx → Fx → Fx → Fx → Kernel) (tolerance : Fx) (p q : Fin r)
    (s : TwoState Fx r × Fx) : TwoState Fx r × Fx :=
  let error := scalePair (s.1.X p q) (s.1.X q p)
  if Fx.lt tolerance error then
    let d := k (s.1.X p p) (s.1.X p q) (s.1.X q p) (s.1.X q q)
    (⟨givensRight fl ps pd s.1.U p q d.cu d.su d.det,
      givensRight fl ps pd (givensLeft fl ps pd s.1.X p q d.cu (Fx.mul fl d.det.neg d.su) d.det) p q d.cv d.sv.neg (.fin 1),
      givensLeft fl ps pd s.1.V p q d.cv d.sv (.fin 1)⟩, Fx.stdMax s.2 error)
  else s

/-- The loops over `p`, `q` — Decompositions/DecomposeSVD.hpp:387-403. -/
noncomputable def twoSweep (fl : ℝ → Fx) (ps pd : Fx → Fx → Fx → Fx → Fx) (k : Fx → Fx → Fx → Fx → Kernel) (tolerance : Fx) (s : TwoState Fx r) :
    TwoState Fx r × Fx :=
  forUp r 0 (fun p s => forUp r (p.val + 1) (fun q s => twoStep fl ps pd k tolerance p q s) s) (s, .fin 0)

/-- The initial state — Decompositions/DecomposeSVD.hpp:374-382. -/
noncomputable def twoInit (fl : ℝ → Fx) (A : Matrix (Fin r) (Fin (n + 1)) Fx) (scaler : Fx) : TwoState Fx r :=
  let one := Matrix.of fun i j : Fin r => if i = j then Fx.fin 1 else Fx.fin 0
  ⟨one, Matrix.of fun i j => if h : j.val < n + 1 then Fx.div fl (A i ⟨j, h⟩) scaler else .fin 0, one⟩

/-- The singular values that `DecomposeSVDJacobiTwoSided(A)` returns — Decompositions/DecomposeSVD.hpp:361-416. `none`: no end after `fuel` iterations. -/
noncomputable def svdTwoSided (fl : ℝ → Fx) (ps pd : Fx → Fx → Fx → Fx → Fx) (k : Fx → Fx → Fx → Fx → Kernel) (tolerance big big' scaler : Fx)
    (hrn : n + 1 ≤ r) (fuel : ℕ) (A : Matrix (Fin r) (Fin (n + 1)) Fx) : Option (Fin (n + 1) → Fx) :=
  (jacobiLoop (twoSweep fl ps pd k tolerance) fuel big big' (twoInit fl A scaler)).map fun s => fun i =>
    Fx.mul fl (s.X (Fin.castLE hrn i) (Fin.castLE hrn i)) scaler

/-! ## One-sided -/

/-- `MinimizeDiagonalizingRotation(cv, sv)` — Decompositions/DecomposeSVD.hpp:160-178. -/
noncomputable def minimizeRotation (fl : ℝ → Fx) (cv sv : Fx) : Fx × Fx :=
  let swap := Fx.lt cv.abs sv.abs
  let p : Fx × Fx := if swap then (sv.neg, cv) else (cv, sv)
  let cvMag : Fx := if swap then sv.abs else cv.abs
  let q := Fx.div fl p.1 cvMag
  (Fx.mul fl q p.1, Fx.mul fl q p.2)

/-- `DiagonalizeHermitian2x2(a11, aoff, a22)` — Decompositions/DecomposeSVD.hpp:186-208. -/
noncomputable def diagonalizeHermitian (fl : ℝ → Fx) (ps : Fx → Fx → Fx → Fx → Fx) (hyp : Fx → Fx → Fx → Fx) (neg : Bool) (a11 aoff a22 : Fx) : Fx × Fx :=
  if aoff == .fin 0 then (.fin 1, .fin 0)
  else
    let z := Fx.sub fl a22 a11
    let d := hyp z (Fx.mul fl (.fin 2) aoff) (.fin 0)
    let Lma11 := Fx.mul fl (.fin (1 / 2)) (Fx.add fl z (Fx.copysign neg d z))
    let cv := Fx.div fl aoff Lma11
    let sv := Fx.fin 1
    let scale := Fx.sqrt fl (ps cv cv sv sv)
    (Fx.div fl cv scale, Fx.div fl sv scale)

/-- The assertion of `DiagonalizeHermitian2x2`, in the builds where it is enabled — Decompositions/DecomposeSVD.hpp:191-201. -/
noncomputable def diagonalizeAssert (fl : ℝ → Fx) (hyp : Fx → Fx → Fx → Fx) (neg : Bool) (a11 aoff a22 : Fx) : Bool :=
  if aoff == .fin 0 then true
  else
    let z := Fx.sub fl a22 a11
    let d := hyp z (Fx.mul fl (.fin 2) aoff) (.fin 0)
    let Lma11 := Fx.mul fl (.fin (1 / 2)) (Fx.add fl z (Fx.copysign neg d z))
    Fx.lt aoff.abs (Fx.mul fl (.fin 2) Lma11.abs)

/-- The sum of the products of two columns in `TransposeMultiplyPartial` and `Length` — Decompositions/DecomposeSVD.hpp:420-422, Vector/Math.hpp:190-201. -/
noncomputable def columnDot (c : Cfg) (p1 : Bool) (fl : ℝ → Fx) (conv : Bool) (tb : RTree (batchSize r false)) (ts : RTree (r + 1)) (a b : Fin r → Fx) : Fx :=
  dot fl conv tb ts (Vec.ofFn a : Vec c Fx r p1) (Vec.ofFn b : Vec c Fx r p1)

/-- The body of the loops over `p`, `q` — Decompositions/DecomposeSVD.hpp:419-425, 450-459; `gram` is the sum of products of two columns. -/
noncomputable def oneStep (fl : ℝ → Fx) (ps pd : Fx → Fx → Fx → Fx → Fx) (hyp : Fx → Fx → Fx → Fx) (gram : (Fin r → Fx) → (Fin r → Fx) → Fx) (neg : Bool)
    (p q : Fin n) (s : OneState Fx r n × Fx) : OneState Fx r n × Fx :=
  let col := fun j i => s.1.X i j
  let ataoff := gram (col p) (col q)
  let error := ataoff.abs
  if !(error == .fin 0) then
    let v0 := diagonalizeHermitian fl ps hyp neg (gram (col p) (col p)) ataoff (gram (col q) (col q))
    let v := minimizeRotation fl v0.1 v0.2
    (⟨givensRight fl ps pd s.1.X p q v.1 v.2 (.fin 1), givensLeft fl ps pd s.1.V p q v.1 v.2.neg (.fin 1)⟩, Fx.stdMax s.2 error)
  else s

/-- The loops over `p`, `q` — Decompositions/DecomposeSVD.hpp:446-461. -/
noncomputable def oneSweep (fl : ℝ → Fx) (ps pd : Fx → Fx → Fx → Fx → Fx) (hyp : Fx → Fx → Fx → Fx) (gram : (Fin r → Fx) → (Fin r → Fx) → Fx) (neg : Bool)
    (s : OneState Fx r n) : OneState Fx r n × Fx :=
  forUp n 0 (fun p s => forUp n (p.val + 1) (fun q s => oneStep fl ps pd hyp gram neg p q s) s) (s, .fin 0)

/-- The initial state — Decompositions/DecomposeSVD.hpp:440-441. -/
noncomputable def oneInit (fl : ℝ → Fx) (A : Matrix (Fin r) (Fin n) Fx) (scaler : Fx) : OneState Fx r n :=
  ⟨Matrix.of fun i j => Fx.div fl (A i j) scaler, Matrix.of fun i j => if i = j then Fx.fin 1 else Fx.fin 0⟩

/-- The lengths of the columns before they are sorted — Decompositions/DecomposeSVD.hpp:428-468; `gram` is also the one of `Length` (Vector/Math.hpp:190-201).
`none`: no end after `fuel` iterations. The singular values are these lengths in some order, with some signs, times `scaler` (lines 469-512). -/
noncomputable def oneLengths (fl : ℝ → Fx) (ps pd : Fx → Fx → Fx → Fx → Fx) (hyp : Fx → Fx → Fx → Fx) (gram : (Fin r → Fx) → (Fin r → Fx) → Fx) (neg : Bool)
    (big big' scaler : Fx) (fuel : ℕ) (A : Matrix (Fin r) (Fin n) Fx) : Option (Fin n → Fx) :=
  (jacobiLoop (oneSweep fl ps pd hyp gram neg) fuel big big' (oneInit fl A scaler)).map fun s => fun j =>
    Fx.sqrt fl (gram (fun i => s.X i j) fun i => s.X i j)

/-- The singular values: `σ` is the order found by `std::sort`, `sgn` the sign bits of the diagonal of `R` if the branch with the QR decomposition is taken
(`qr`) — Decompositions/DecomposeSVD.hpp:469-512. -/
noncomputable def svdOneSided (fl : ℝ → Fx) (ps pd : Fx → Fx → Fx → Fx → Fx) (hyp : Fx → Fx → Fx → Fx) (gram : (Fin r → Fx) → (Fin r → Fx) → Fx) (neg : Bool)
    (big big' scaler : Fx) (σ : Equiv.Perm (Fin n)) (qr : Bool) (sgn : Fin n → Bool) (fuel : ℕ) (A : Matrix (Fin r) (Fin n) Fx) : Option (Fin n → Fx) :=
  (oneLengths fl ps pd hyp gram neg big big' scaler fuel A).map fun S => fun i =>
    let s := S (σ i)
    Fx.mul fl (if qr then (if sgn i then s.abs.neg else s.abs) else s) scaler

end Ie
end Mathter
