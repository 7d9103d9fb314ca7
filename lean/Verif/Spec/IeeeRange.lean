import Verif.Model.IeeeLinear

/-!
# What the theorems about overflow refer to
-/

namespace Mathter

/-- Results of magnitude at most `M` are rounded to finite numbers like by `fl₀`. (IEEE 754, for the operators of `T` in Decompositions/DecomposeSVD.hpp:186-513.) -/
def FitsBelow (M : ℝ) (fl : ℝ → Fx) (fl₀ : ℝ → ℝ) : Prop := ∀ x, |x| ≤ M → fl x = .fin (fl₀ x)

/-- The values of `a * b + c * d`: with rounded products, or with one of them fused. (used in Decompositions/DecomposeSVD.hpp:204, 344-356.) -/
def Fx.IsProdSum (fl : ℝ → Fx) (ps : Fx → Fx → Fx → Fx → Fx) : Prop :=
  ∀ a b c d, ps a b c d = add fl (mul fl a b) (mul fl c d) ∨ ps a b c d = add fl (mul .fin a b) (mul fl c d) ∨
    ps a b c d = add fl (mul fl a b) (mul .fin c d)

/-- `std::hypot` has relative error `w` as long as its result is at most `M`. (used in Decompositions/DecomposeSVD.hpp:196, 227.) -/
def Fx.IsHypot (M w : ℝ) (hyp : Fx → Fx → Fx → Fx) : Prop :=
  ∀ x y z : ℝ, (1 + w) * Real.sqrt (x ^ 2 + y ^ 2 + z ^ 2) ≤ M →
    ∃ v, hyp (.fin x) (.fin y) (.fin z) = .fin v ∧ |v - Real.sqrt (x ^ 2 + y ^ 2 + z ^ 2)| ≤ w * Real.sqrt (x ^ 2 + y ^ 2 + z ^ 2)

end Mathter
