import Verif.Model.RoundedQR

/-!
# Rounded evaluation of `NormalizePrecise` and of the Gram-Schmidt orthogonalisation

`include/Mathter/Vector/Math.hpp` with a rounding `fl` after every operation, for real element types. `fl` has no overflow or underflow. `dot` is `Dot`,
`norm` is `NormalizePrecise`, and `msub` is `a - b * c` of floats, which the compiler may contract.
-/

namespace Mathter.Fl
variable {n : ℕ}

open Classical in
/-- `NormalizePrecise(v)` — Vector/Math.hpp:245-251, 256-261. For `scale = 0` the code computes NaNs and returns the first unit vector. -/
noncomputable def normalizePrecise1 (c : Cfg) (p : Bool) (fl : ℝ → ℝ) (conv : Bool) (tb : RTree (batchSize (n + 1) false)) (ts : RTree (n + 1 + 1))
    (v : Fin (n + 1) → ℝ) : Fin (n + 1) → ℝ :=
  let degenerate : Fin (n + 1) → ℝ := fun i => if i = 0 then 1 else 0
  let scale := scaleElements v
  if scale = 0 then degenerate
  else
    let scaled : Fin (n + 1) → ℝ := fun i => fl (v i / scale)
    let len := length fl conv tb ts (Vec.ofFn scaled : Vec c ℝ (n + 1) p)
    if len ≠ 0 then fun i => fl (scaled i / len) else degenerate

open Classical in
/-- The scalar factor in the lambda `proj` of `GramSchmidtOrthogonalize` — Vector/Math.hpp:293-296; `none` is a division by zero. -/
noncomputable def gsCoef (fl : ℝ → ℝ) (dot : (Fin n → ℝ) → (Fin n → ℝ) → ℝ) (norm : (Fin n → ℝ) → Fin n → ℝ) (u v : Fin n → ℝ) : Option ℝ :=
  let uScaled := norm u
  if dot u uScaled = 0 then none else some (fl (dot v uScaled / dot u uScaled))

/-- The inner loop of `GramSchmidtOrthogonalize` — Vector/Math.hpp:300-303, with the product of `proj` (295). -/
noncomputable def gsInner (fl : ℝ → ℝ) (msub : ℝ → ℝ → ℝ → ℝ) (dot : (Fin n → ℝ) → (Fin n → ℝ) → ℝ) (norm : (Fin n → ℝ) → Fin n → ℝ) :
    List (Fin n → ℝ) → (Fin n → ℝ) → Option (Fin n → ℝ)
  | [], uk => some uk
  | u :: us, uk => (gsCoef fl dot norm u uk).bind fun f => gsInner fl msub dot norm us fun i => msub (uk i) f (u i)

/-- The outer loop of `GramSchmidtOrthogonalize` — Vector/Math.hpp:298-305; `out` are the vectors written so far. -/
noncomputable def gsLoop (fl : ℝ → ℝ) (msub : ℝ → ℝ → ℝ → ℝ) (dot : (Fin n → ℝ) → (Fin n → ℝ) → ℝ) (norm : (Fin n → ℝ) → Fin n → ℝ) :
    List (Fin n → ℝ) → List (Fin n → ℝ) → Option (List (Fin n → ℝ))
  | [], out => some out
  | v :: vs, out => (gsInner fl msub dot norm out v).bind fun uk => gsLoop fl msub dot norm vs (out ++ [uk])

/-- `GramSchmidtOrthogonalize(first, last, out)` — Vector/Math.hpp:291-306. -/
noncomputable def gramSchmidt (fl : ℝ → ℝ) (msub : ℝ → ℝ → ℝ → ℝ) (dot : (Fin n → ℝ) → (Fin n → ℝ) → ℝ) (norm : (Fin n → ℝ) → Fin n → ℝ)
    (vs : List (Fin n → ℝ)) : Option (List (Fin n → ℝ)) := gsLoop fl msub dot norm vs []

/-- `NormalizePrecise` (Vector/Math.hpp:256-261) with the relative error of two roundings in every element, after a division by a number that is the length
up to `k` roundings; `Fl.normalizePrecise1` has it. -/
def IsNormalize (u : ℝ) (k : ℕ) (norm : (Fin n → ℝ) → Fin n → ℝ) : Prop :=
  ∀ v, v ≠ 0 → ∃ L, 0 < L ∧ |L - Real.sqrt (∑ i, v i ^ 2)| ≤ ((1 + u) ^ k - 1) * Real.sqrt (∑ i, v i ^ 2) ∧
    ∀ i, |norm v i - v i / L| ≤ ((1 + u) ^ 2 - 1) * |v i / L|

end Mathter.Fl
