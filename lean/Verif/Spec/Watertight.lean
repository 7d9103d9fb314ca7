import Mathlib.LinearAlgebra.CrossProduct
import Mathlib.Data.Real.Basic

/-!
# Products with a single term
-/

namespace Mathter.Fl

/-- A dot product with a single nonzero term, which is a float, is that term. -/
def DotSingle (fl : ℝ → ℝ) (dot : (Fin 3 → ℝ) → (Fin 3 → ℝ) → ℝ) : Prop :=
  ∀ x y i, (∀ j, j ≠ i → x j * y j = 0) → fl (x i * y i) = x i * y i → dot x y = x i * y i

/-- The component of a cross product of floats with a single nonzero term, which is a float, is that term. -/
def CrossSingle (fl : ℝ → ℝ) (cross : (Fin 3 → ℝ) → (Fin 3 → ℝ) → Fin 3 → ℝ) : Prop :=
  ∀ a b i, (∀ j, fl (a j) = a j) → (a (i + 1) * b (i + 2) = 0 ∨ a (i + 2) * b (i + 1) = 0) → fl (a (i + 1) * b (i + 2)) = a (i + 1) * b (i + 2) →
    fl (a (i + 2) * b (i + 1)) = a (i + 2) * b (i + 1) → cross a b i = crossProduct a b i

end Mathter.Fl
