import Verif.Model.RoundedGram
import Verif.Model.RoundedTriangle

/-!
# Rounded evaluation of the look-at transforms

`include/Mathter/Transforms/ViewBuilder.hpp` with a rounding `fl` after every operation, for real element types. `fl` has no overflow or underflow. `dot` is
`Dot`, `norm` is `NormalizePrecise`, `cross` is `Cross` of two iterators, and `msub` is `a - b * c` of floats.
-/

namespace Mathter.Fl
variable {n : ℕ}

/-- The columns of `rotation` as computed by `ViewBuilder::Set` — ViewBuilder.hpp:52-79, `Dim = n + 2`; see `lookColumns`. -/
noncomputable def lookColumns (fl : ℝ → ℝ) (msub : ℝ → ℝ → ℝ → ℝ) (dot : (Fin (n + 2) → ℝ) → (Fin (n + 2) → ℝ) → ℝ)
    (norm : (Fin (n + 2) → ℝ) → Fin (n + 2) → ℝ) (cross : List (Fin (n + 2) → ℝ) → Fin (n + 2) → ℝ) (eye target : Fin (n + 2) → ℝ)
    (bases : Fin n → Fin (n + 2) → ℝ) (flip : Fin (n + 2) → Bool) : Option (List (Fin (n + 2) → ℝ)) :=
  let lookAxis : Fin (n + 2) → ℝ := fun i => fl (eye i - target i)
  let ext := List.ofFn bases ++ [lookAxis]
  let sideAxis := cross ext
  let ext := sideAxis :: ext.rotate n
  (gramSchmidt fl msub dot norm ext).bind fun columns =>
  let columns := columns.map norm
  let columns := columns.take 1 ++ (columns.drop 1).rotate 1
  some (columns.zipIdx.map fun p => if h : p.2 < n + 2 then (if flip ⟨p.2, h⟩ then -p.1 else p.1) else p.1)

/-- `translation` in `ViewBuilder::Set` — ViewBuilder.hpp:81: for a matrix of columns with `FOLLOW_VECTOR`, the inner products with the columns
(Arithmetic.hpp, see `vecMulC`). -/
noncomputable def lookTranslation (dot : (Fin n → ℝ) → (Fin n → ℝ) → ℝ) (eye : Fin n → ℝ) (columns : List (Fin n → ℝ)) : List ℝ :=
  columns.map fun c => dot (-eye) c

/-- `Cross` of one vector of the plane — Vector/Math.hpp:364-369. -/
def crossOf1 : List (Fin 2 → ℝ) → Fin 2 → ℝ
  | a :: _ => ![-a 1, a 0]
  | [] => 0

/-- `Cross` of two iterators in space — Vector/Math.hpp:370-380; `cross` is the function of the two vectors. The exception for fewer vectors does not occur. -/
def crossOf2 (cross : (Fin 3 → ℝ) → (Fin 3 → ℝ) → Fin 3 → ℝ) : List (Fin 3 → ℝ) → Fin 3 → ℝ
  | a :: b :: _ => cross a b
  | _ => 0

/-- The two-dimensional overload of `LookAt` — ViewBuilder.hpp:127-130. -/
noncomputable def lookColumns2D (fl : ℝ → ℝ) (msub : ℝ → ℝ → ℝ → ℝ) (dot : (Fin 2 → ℝ) → (Fin 2 → ℝ) → ℝ) (norm : (Fin 2 → ℝ) → Fin 2 → ℝ)
    (eye target : Fin 2 → ℝ) (positiveYForward flipX : Bool) : Option (List (Fin 2 → ℝ)) :=
  lookColumns (n := 0) fl msub dot norm crossOf1 eye target (fun i => i.elim0) ![flipX, positiveYForward]

/-- The three-dimensional overload of `LookAt` — ViewBuilder.hpp:142-145. -/
noncomputable def lookColumns3D (fl : ℝ → ℝ) (msub : ℝ → ℝ → ℝ → ℝ) (dot : (Fin 3 → ℝ) → (Fin 3 → ℝ) → ℝ) (norm : (Fin 3 → ℝ) → Fin 3 → ℝ)
    (cross : (Fin 3 → ℝ) → (Fin 3 → ℝ) → Fin 3 → ℝ) (eye target up : Fin 3 → ℝ) (positiveZForward flipX flipY : Bool) : Option (List (Fin 3 → ℝ)) :=
  lookColumns (n := 1) fl msub dot norm (crossOf2 cross) eye target ![up] ![flipX, flipY, positiveZForward]

end Mathter.Fl
