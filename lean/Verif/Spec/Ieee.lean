import Verif.Model.Ieee
import Mathlib.Data.EReal.Operations

/-!
# What the theorems about NaN and infinities refer to
-/

namespace Mathter

/-- The extended real number of a floating-point value that is not NaN. (the values of `T` in Vector/Math.hpp:31-260.) -/
noncomputable def Fx.val : Fx → EReal
  | .nan => 0
  | .inf true => ⊥
  | .inf false => ⊤
  | .fin x => (x : EReal)

/-- What is used about rounding: it never returns NaN, keeps zero, and keeps the sign (results too large become infinities). (IEEE 754, for the
operators of `T` in Vector/Math.hpp:142-251.) -/
structure RoundsFx (fl : ℝ → Fx) : Prop where
  not_nan : ∀ x, fl x ≠ .nan
  zero : fl 0 = .fin 0
  nonneg : ∀ x, 0 ≤ x → 0 ≤ (fl x).val

/-- Additionally: rounding is monotone and keeps -1 and the integers up to `N`. (IEEE 754, for the operators of `T` in Vector/Math.hpp:142-251.) -/
structure RoundsMonoFx (N : ℕ) (fl : ℝ → Fx) : Prop extends RoundsFx fl where
  mono : ∀ x y, x ≤ y → (fl x).val ≤ (fl y).val
  nat : ∀ k : ℕ, k ≤ N → fl k = .fin k
  neg_one : fl (-1) = .fin (-1)

/-- What is used about `xsimd::max` on a lane: it returns one of its operands, and the larger one if neither is NaN.
(Common/Functional.hpp:130-137.) -/
structure LaneMax (b : Fx → Fx → Fx) : Prop where
  choice : ∀ x y, b x y = x ∨ b x y = y
  max : ∀ x y, x ≠ .nan → y ≠ .nan → (b x y).val = max x.val y.val

/-- What is used about `xsimd::min` on a lane. (Common/Functional.hpp:159-166.) -/
structure LaneMin (b : Fx → Fx → Fx) : Prop where
  choice : ∀ x y, b x y = x ∨ b x y = y
  min : ∀ x y, x ≠ .nan → y ≠ .nan → (b x y).val = min x.val y.val

/-- `fl` rounds like `fl₀`, except that results may overflow to an infinity; a finite result is a number of the format, rounded to itself.
(IEEE 754, for the operators of `T` in Vector/Math.hpp:142-251.) -/
structure Overflows (fl : ℝ → Fx) (fl₀ : ℝ → ℝ) : Prop where
  round : ∀ x, fl x = .fin (fl₀ x) ∨ ∃ s, fl x = .inf s
  idem : ∀ x y, fl x = .fin y → fl y = .fin y

end Mathter
