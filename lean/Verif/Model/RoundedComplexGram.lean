import Verif.Model.RoundedComplexQR

/-!
# Rounded evaluation of `Normalize`, `NormalizePrecise` and of the Gram-Schmidt orthogonalisation of complex vectors

`include/Mathter/Vector/Math.hpp` for complex element types, without overflow or underflow. `dv` is the division of a complex by a real number, `dq` that of complex
numbers, `dot` is `Dot`, `norm` is `NormalizePrecise`, and `msub` is `a - b * c` of complex numbers.
-/

namespace Mathter.Fl
variable {n : ℕ}

open Classical in
/-- `Normalize(v)` of a complex vector — Vector/Math.hpp:232-239; `none` is the failed assertion. -/
noncomputable def normalizeC (c : Cfg) (p : Bool) (fl : ℝ → ℝ) (ps pd : ℝ → ℝ → ℝ → ℝ → ℝ) (dv : ℂ → ℝ → ℂ) (conv : Bool) (tb : RTree (batchSize n false))
    (ts : RTree (n + 1)) (v : Fin n → ℂ) : Option (Fin n → ℂ) :=
  let len := lengthC fl ps pd conv tb ts (Vec.ofFn v : Vec c ℂ n p)
  if len = 0 then none else some fun i => dv (v i) len

open Classical in
/-- `NormalizePrecise(v)` of a complex vector — Vector/Math.hpp:245-251, 256-261. For `scale = 0` the code computes NaNs and returns the first unit vector. -/
noncomputable def normalizePreciseC (c : Cfg) (p : Bool) (fl : ℝ → ℝ) (ps pd : ℝ → ℝ → ℝ → ℝ → ℝ) (dv : ℂ → ℝ → ℂ) (conv : Bool)
    (tb : RTree (batchSize (n + 1) false)) (ts : RTree (n + 1 + 1)) (v : Fin (n + 1) → ℂ) : Fin (n + 1) → ℂ :=
  let degenerate : Fin (n + 1) → ℂ := fun i => if i = 0 then 1 else 0
  let scale := scaleElements v
  if scale = 0 then degenerate
  else
    let scaled : Fin (n + 1) → ℂ := fun i => dv (v i) scale
    let len := lengthC fl ps pd conv tb ts (Vec.ofFn scaled : Vec c ℂ (n + 1) p)
    if len ≠ 0 then fun i => dv (scaled i) len else degenerate

open Classical in
/-- The scalar factor in the lambda `proj` of `GramSchmidtOrthogonalize` — Vector/Math.hpp:293-296; `none` is a division by zero. -/
noncomputable def gsCoefC (dq : ℂ → ℂ → ℂ) (dot : (Fin n → ℂ) → (Fin n → ℂ) → ℂ) (norm : (Fin n → ℂ) → Fin n → ℂ) (u v : Fin n → ℂ) : Option ℂ :=
  let uScaled := norm u
  if dot u uScaled = 0 then none else some (dq (dot v uScaled) (dot u uScaled))

/-- The inner loop of `GramSchmidtOrthogonalize` — Vector/Math.hpp:300-303, with the product of `proj` (295). -/
noncomputable def gsInnerC (dq : ℂ → ℂ → ℂ) (msub : ℂ → ℂ → ℂ → ℂ) (dot : (Fin n → ℂ) → (Fin n → ℂ) → ℂ) (norm : (Fin n → ℂ) → Fin n → ℂ) :
    List (Fin n → ℂ) → (Fin n → ℂ) → Option (Fin n → ℂ)
  | [], uk => some uk
  | u :: us, uk => (gsCoefC dq dot norm u uk).bind fun f => gsInnerC dq msub dot norm us fun i => msub (uk i) f (u i)

/-- The outer loop of `GramSchmidtOrthogonalize` — Vector/Math.hpp:298-305; `out` are the vectors written so far. -/
noncomputable def gsLoopC (dq : ℂ → ℂ → ℂ) (msub : ℂ → ℂ → ℂ → ℂ) (dot : (Fin n → ℂ) → (Fin n → ℂ) → ℂ) (norm : (Fin n → ℂ) → Fin n → ℂ) :
    List (Fin n → ℂ) → List (Fin n → ℂ) → Option (List (Fin n → ℂ))
  | [], out => some out
  | v :: vs, out => (gsInnerC dq msub dot norm out v).bind fun uk => gsLoopC dq msub dot norm vs (out ++ [uk])

/-- `GramSchmidtOrthogonalize(first, last, out)` — Vector/Math.hpp:291-306. -/
noncomputable def gramSchmidtC (dq : ℂ → ℂ → ℂ) (msub : ℂ → ℂ → ℂ → ℂ) (dot : (Fin n → ℂ) → (Fin n → ℂ) → ℂ) (norm : (Fin n → ℂ) → Fin n → ℂ)
    (vs : List (Fin n → ℂ)) : Option (List (Fin n → ℂ)) := gsLoopC dq msub dot norm vs []

/-- `GramSchmidtOrthogonalize` of complex vectors with the library's `Dot`, `NormalizePrecise`, product and difference — Vector/Math.hpp:291-306. Simplified: the
compiler may contract the parts of a product (`ps`, `pd`), which leaves nothing to contract in `uk - f * u`. -/
noncomputable def gramSchmidtLibC (c : Cfg) (p : Bool) (fl : ℝ → ℝ) (ps pd : ℝ → ℝ → ℝ → ℝ → ℝ) (dv : ℂ → ℝ → ℂ) (dq : ℂ → ℂ → ℂ) (conv : Bool)
    (tb : RTree (batchSize (n + 1) false)) (ts : RTree (n + 1 + 1)) (vs : List (Fin (n + 1) → ℂ)) : Option (List (Fin (n + 1) → ℂ)) :=
  gramSchmidtC dq (fun a b d => flC fl (a - prodC ps pd b d))
    (fun x y => dotC fl ps pd conv tb ts (Vec.ofFn x : Vec c ℂ (n + 1) p) (Vec.ofFn y : Vec c ℂ (n + 1) p)) (normalizePreciseC c p fl ps pd dv conv tb ts) vs

end Mathter.Fl
