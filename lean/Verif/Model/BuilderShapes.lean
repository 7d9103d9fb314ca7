import Verif.Model.Transforms

/-!
# The shapes the transform builders convert to

The conversion operators of `Transforms/*.hpp`: for which numbers of rows and columns each builder can be converted to a matrix of the given order.
-/

namespace Mathter
universe u
variable {K : Type u}

/-- The builders with a fixed list of shapes, with the dimension of the vectors they are made of. (Transforms/*.hpp.) -/
inductive Builder
  | scale (n : ℕ)
  | translation (n : ℕ)
  | orthographic (n : ℕ)
  | perspective (n : ℕ)
  | lookAt (n : ℕ)
  | shearGeneral (n : ℕ)
  | rotation2D
  | rotationAxis
  | rotationAxis3
  | rotationAxisAngle

/-- The shapes with one extra row (`FOLLOW_VECTOR`) or column (`PRECEDE_VECTOR`). (e.g. Transforms/ScaleBuilder.hpp:39-51.) -/
def narrowShape (o : Order) (n : ℕ) : ℕ × ℕ :=
  match o with
  | .precede => (n, n + 1)
  | .follow => (n + 1, n)

/-- The conversion operators to matrices, in the order of the code:
`ScaleBuilder` Transforms/ScaleBuilder.hpp:25-51, `TranslationBuilder` Transforms/TranslationBuilder.hpp:25-44,
`OrthographicBuilder` Transforms/OrthographicBuilder.hpp:27-46, `PerspectiveBuilder` Transforms/PerspectiveBuilder.hpp:26-31 (`Dim` is
one more than the number of ratios, lines 90-94), `ViewBuilder` Transforms/ViewBuilder.hpp:27-46, `ShearBuilderGeneral` Transforms/ShearBuilder.hpp:73-91,
`Rotation2DBuilder` Transforms/Rotation2DBuilder.hpp:23-50, `Rotation3DAxisBuilder` Transforms/Rotation3DBuilder.hpp:100-118,
`Rotation3DTriAxisBuilder` Transforms/Rotation3DBuilder.hpp:139-157, `Rotation3DAxisAngleBuilder` Transforms/Rotation3DBuilder.hpp:196-214. -/
def Builder.shapes (o : Order) : Builder → List (ℕ × ℕ)
  | .scale n => [(n + 1, n + 1), (n, n), narrowShape o n]
  | .translation n => [(n + 1, n + 1), narrowShape o n]
  | .orthographic n => [(n + 1, n + 1), narrowShape o n]
  | .perspective n => [(n + 1, n + 1)]
  | .lookAt n => [(n + 1, n + 1), narrowShape o n]
  | .shearGeneral _ => [(4, 4), (3, 3), narrowShape o 3]
  | .rotation2D => [(3, 3), (2, 2), narrowShape o 2]
  | .rotationAxis => [(4, 4), (3, 3), narrowShape o 3]
  | .rotationAxis3 => [(4, 4), (3, 3), narrowShape o 3]
  | .rotationAxisAngle => [(4, 4), (3, 3), narrowShape o 3]

/-- The conversion of `ShearBuilderGeneral` with the assertions of `Insert` (Matrix/Matrix.hpp:378-379), which fail for vectors that are too long.
Transforms/ShearBuilder.hpp:17-30, 73-91. -/
def shearConvert [CommRing K] {n : ℕ} (o : Order) (r c : ℕ) (slope : K) (dir mod : Fin n → K) : Option (Matrix (Fin r) (Fin c) K) :=
  if n + 0 ≤ r ∧ n + 0 ≤ c then some (shearGeneral o r c slope dir mod) else none

end Mathter
