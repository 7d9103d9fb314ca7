import Mathlib.Analysis.RCLike.Basic
import Mathlib.Analysis.SpecialFunctions.Pow.Real
import Verif.Model.Determinant

/-!
# Vector mathematics

Models `include/Mathter/Vector/Math.hpp` at element level over `𝕜 = ℝ` or `ℂ` (`RCLike`), in exact arithmetic. The conversions from
floating point that are not arithmetic (`std::isfinite`, NaN from `0 / 0`) appear as explicit case distinctions.
-/

namespace Mathter
universe u
variable {𝕜 : Type u} [RCLike 𝕜] {n : ℕ}

/-- `Conj(v)` — Vector/Math.hpp:128-131. -/
def vconj (v : Fin n → 𝕜) : Fin n → 𝕜 := fun i => star (v i)

/-- `Dot(lhs, rhs)` — Vector/Math.hpp:176-180. -/
def dot (lhs rhs : Fin n → 𝕜) : 𝕜 := vsum (lhs * vconj rhs)

/-- `LengthSquared(v)` — Vector/Math.hpp:190-194. -/
def lengthSquared (v : Fin n → 𝕜) : ℝ := RCLike.re (dot v v)

/-- `Length(v)` — Vector/Math.hpp:197-201. -/
noncomputable def length (v : Fin n → 𝕜) : ℝ := Real.sqrt (lengthSquared v)

/-- `Distance(lhs, rhs)` — Vector/Math.hpp:216-220. -/
noncomputable def distance (lhs rhs : Fin n → 𝕜) : ℝ := length (lhs - rhs)

/-- `ScaleElements(v)` — Vector/Math.hpp:91-104: the largest magnitude among real and imaginary parts. The real-valued branch
`Max(Abs(v))` is the same value because the imaginary part is zero. `Max` is the reduction of C03. -/
noncomputable def scaleElements (v : Fin (n + 1) → 𝕜) : ℝ :=
  Finset.univ.sup' ⟨0, Finset.mem_univ 0⟩ fun i => max |RCLike.re (v i)| |RCLike.im (v i)|

/-- `std::clamp(x, lo, hi)`. (used in Vector/Math.hpp:210.) -/
noncomputable def stdClamp (x lo hi : ℝ) : ℝ := if x < lo then lo else if hi < x then hi else x

/-- `v / scale` for a real scale — Vector/Arithmetic.hpp:148-152 (C01, C02). -/
noncomputable def divReal (v : Fin n → 𝕜) (s : ℝ) : Fin n → 𝕜 := fun i => v i / (s : 𝕜)

/-- `LengthPrecise(v)` — Vector/Math.hpp:206-213. `lo`/`hi` are the smallest and largest positive normal values of the type. -/
noncomputable def lengthPrecise (lo hi : ℝ) (v : Fin (n + 1) → 𝕜) : ℝ :=
  let scale := stdClamp (scaleElements v) lo hi
  length (divReal v scale) * scale

/-- `DistancePrecise(lhs, rhs)` — Vector/Math.hpp:225-228. -/
noncomputable def distancePrecise (lo hi : ℝ) (lhs rhs : Fin (n + 1) → 𝕜) : ℝ := lengthPrecise lo hi (lhs - rhs)

open Classical in
/-- `Normalize(v)` — Vector/Math.hpp:232-238; `none` is the failed assertion `length != 0`. -/
noncomputable def normalize (v : Fin n → 𝕜) : Option (Fin n → 𝕜) :=
  if length v = 0 then none else some (divReal v (length v))

open Classical in
/-- `NormalizePrecise(v, degenerate)` — Vector/Math.hpp:244-251. For `scale = 0` the code computes `0 / 0 = NaN`, `std::isfinite(NaN)`
is false, and `degenerate` is returned; otherwise `length` is finite. -/
noncomputable def normalizePrecise (v : Fin (n + 1) → 𝕜) (degenerate : Fin (n + 1) → 𝕜) : Fin (n + 1) → 𝕜 :=
  let scale := scaleElements v
  if scale = 0 then degenerate
  else
    let scaled := divReal v scale
    let len := length scaled
    if len ≠ 0 then divReal scaled len else degenerate

/-- `NormalizePrecise(v)` — Vector/Math.hpp:256-261: the fallback is the first unit vector. -/
noncomputable def normalizePrecise1 (v : Fin (n + 1) → 𝕜) : Fin (n + 1) → 𝕜 :=
  normalizePrecise v (fun i => if i = 0 then 1 else 0)

open Classical in
/-- The lambda `proj` of `GramSchmidtOrthogonalize` — Vector/Math.hpp:293-296; `none` is a division by zero. -/
noncomputable def gsProj (u v : Fin (n + 1) → 𝕜) : Option (Fin (n + 1) → 𝕜) :=
  let uScaled := normalizePrecise1 u
  if dot u uScaled = 0 then none else some fun i => dot v uScaled / dot u uScaled * u i

/-- The inner loop of `GramSchmidtOrthogonalize` — Vector/Math.hpp:300-303. -/
noncomputable def gsInner : List (Fin (n + 1) → 𝕜) → (Fin (n + 1) → 𝕜) → Option (Fin (n + 1) → 𝕜)
  | [], uk => some uk
  | u :: us, uk => (gsProj u uk).bind fun p => gsInner us (uk - p)

/-- The outer loop of `GramSchmidtOrthogonalize` — Vector/Math.hpp:298-305; `out` are the vectors written so far. -/
noncomputable def gsLoop : List (Fin (n + 1) → 𝕜) → List (Fin (n + 1) → 𝕜) → Option (List (Fin (n + 1) → 𝕜))
  | [], out => some out
  | v :: vs, out => (gsInner out v).bind fun uk => gsLoop vs (out ++ [uk])

/-- `GramSchmidtOrthogonalize(first, last, out)` — Vector/Math.hpp:291-306. -/
noncomputable def gramSchmidt (vs : List (Fin (n + 1) → 𝕜)) : Option (List (Fin (n + 1) → 𝕜)) := gsLoop vs []

/-! ## Cross product -/

section cross
variable {K : Type u} [CommRing K]

/-- `detCalc` of `CrossND` for one `idx` — Vector/Math.hpp:339-348: the two pairs of loops writing into `detCalc`, started from whatever
an earlier iteration left there. Dimension `Dim = n + 1`. -/
def crossFill (vectors : Fin n → Fin (n + 1) → K) (idx : Fin (n + 1)) (d : Fin n → Fin n → K) : Fin n → Fin n → K :=
  let d := forUp idx.val 0 (fun j d => forUp n 0 (fun i d =>
    fun r c => if r = i ∧ c.val = j.val then vectors i ⟨j.val, by omega⟩ else d r c) d) d
  forUp (n + 1) (idx.val + 1) (fun j d => forUp n 0 (fun i d =>
    fun r c => if r = i ∧ c.val = j.val - 1 then vectors i j else d r c) d) d

/-- `CrossND` for exactly `Dim - 1` vectors — Vector/Math.hpp:336-352. `detFn` is `Determinant`; `d0` and `r0` are the uninitialised
`detCalc` and `result`. -/
def crossND (detFn : (Fin n → Fin n → K) → K) (d0 : Fin n → Fin n → K) (r0 : Fin (n + 1) → K) (vectors : Fin n → Fin (n + 1) → K) :
    Fin (n + 1) → K :=
  (forUp (n + 1) 0 (fun idx (s : (Fin n → Fin n → K) × (Fin (n + 1) → K) × ℤ) =>
    let d := crossFill vectors idx s.1
    (d, fun i => if i = idx then (s.2.2 : K) * detFn d else s.2.1 i, s.2.2 * -1))
    (d0, r0, 2 * ((n + 1 : ℤ) % 2) - 1)).2.1

/-- `Cross(first, last)` — Vector/Math.hpp:319-384 for `Dim = n + 2`: `none` is the thrown `std::invalid_argument`; surplus arguments are
ignored. -/
def cross [DecidableEq K] (div : K → K → K) : {n : ℕ} → (d0 : Fin (n + 1) → Fin (n + 1) → K) → (r0 : Fin (n + 2) → K) →
    List (Fin (n + 2) → K) → Option (Fin (n + 2) → K)
  | 0, _, _, [] => none
  | 0, _, _, a :: _ => some ![-a 1, a 0]
  | 1, _, _, a :: b :: _ =>
    some (sw a ![1, 2, 0] * sw b ![2, 0, 1] + -sw a ![2, 0, 1] * sw b ![1, 2, 0])
  | 1, _, _, _ => none
  | n + 2, d0, r0, args =>
    if h : n + 3 ≤ args.length then
      some (crossND (fun m => determinant div .col (Matrix.of m)) d0 r0 fun i => args[i.val])
    else none

end cross

/-! ## Compensated sums -/

/-- `Fast2Sum(a, b)` — Common/MathUtil.hpp:16-22, with the type's addition and subtraction as parameters (they round). -/
def fast2Sum (fadd fsub : ℝ → ℝ → ℝ) (a b : ℝ) : ℝ × ℝ :=
  let s := fadd a b
  let z := fsub s a
  let c := fsub b z
  (s, c)

/-- Body of the loop of `SumCompensated` — Vector/Math.hpp:161-170. -/
noncomputable def sumCompStep (fadd fsub : ℝ → ℝ → ℝ) (st : ℝ × ℝ) (element : ℝ) : ℝ × ℝ :=
  let (sum, compensation) := st
  let t := fadd sum element
  let compensation := if |sum| > |element| then fadd compensation (fadd (fsub sum t) element)
    else fadd compensation (fadd (fsub element t) sum)
  (t, compensation)

/-- `SumCompensated(v)` — Vector/Math.hpp:158-173, for real element types. -/
noncomputable def sumCompensated (fadd fsub : ℝ → ℝ → ℝ) (v : Fin n → ℝ) : ℝ × ℝ :=
  let st := (List.ofFn v).foldl (sumCompStep fadd fsub) (0, 0)
  fast2Sum fadd fsub st.1 st.2

/-- `DotCompensated(lhs, rhs)` — Vector/Math.hpp:184-187, for real element types (`Conj` is the identity). -/
noncomputable def dotCompensated (fadd fsub fmul : ℝ → ℝ → ℝ) (lhs rhs : Fin n → ℝ) : ℝ × ℝ :=
  sumCompensated fadd fsub fun i => fmul (lhs i) (rhs i)

end Mathter
