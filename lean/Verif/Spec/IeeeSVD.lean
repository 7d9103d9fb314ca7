import Verif.Spec.Ieee
import Mathlib.Data.Finset.Basic

/-!
# What the theorems about the singular value decompositions on values with infinities and NaN refer to
-/

namespace Mathter

/-- The finite numbers of a floating-point format are a finite set `N` with zero and negatives, and rounding returns one of them or an infinity.
(IEEE 754, for the operators of `T` in Decompositions/DecomposeSVD.hpp:343-513.) -/
structure IsFormat (N : Finset ℝ) (fl : ℝ → Fx) : Prop where
  zero : 0 ∈ N
  neg : ∀ x ∈ N, -x ∈ N
  round : ∀ x y, fl x = .fin y → y ∈ N

/-- The finite results of a sum (difference) of two products are numbers of the format; so it is with or without fused operations.
(Decompositions/DecomposeSVD.hpp:343-358.) -/
def InFormat (N : Finset ℝ) (op : Fx → Fx → Fx → Fx → Fx) : Prop := ∀ a b c d y, op a b c d = .fin y → y ∈ N

/-- A sum (difference) of two products is NaN if one of the four factors is. (Decompositions/DecomposeSVD.hpp:343-358.) -/
structure PassesNan (op : Fx → Fx → Fx → Fx → Fx) : Prop where
  first : ∀ b c d, op .nan b c d = .nan
  second : ∀ a c d, op a .nan c d = .nan
  third : ∀ a b d, op a b .nan d = .nan
  fourth : ∀ a b c, op a b c .nan = .nan

end Mathter
