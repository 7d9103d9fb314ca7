import Verif.Model.RoundedGram
import Verif.Model.RoundedQuaternion
import Verif.Spec.Rounding
import Mathlib.Analysis.SpecialFunctions.Complex.Arg
import Mathlib.Analysis.SpecialFunctions.Trigonometric.Inverse

/-!
# Rounded evaluation of `Angle`, `Axis`, `Exp`, `Log` and `Pow` of quaternions

`include/Mathter/Quaternion/Math.hpp` with a rounding `fl` after every operation, for real scalar types. `fl` has no overflow or underflow. `len` is `Length`
or `LengthPrecise`, `norm` is `NormalizePrecise`, and the functions of `<cmath>` are those of a library `L`.
-/

namespace Mathter.Fl
variable {l : QLayout}

/-- The functions of `<cmath>` that Quaternion/Math.hpp:18, 91, 95, 106, 109 calls. -/
structure CMath where
  exp : ℝ → ℝ
  log : ℝ → ℝ
  cos : ℝ → ℝ
  sin : ℝ → ℝ
  acos : ℝ → ℝ
  atan2 : ℝ → ℝ → ℝ
  hypot : ℝ → ℝ → ℝ

/-- The functions have a relative error of at most `e`; `exp`, `cos` and `hypot` are exact at 0 (C standard, Annex F), and `hypot` is not smaller than its first
argument. (For the calls in Quaternion/Math.hpp:18, 91, 95, 106, 109.) -/
structure CMath.Accurate (p : ℕ) (e : ℝ) (L : CMath) : Prop where
  exp : ∀ x, |L.exp x - Real.exp x| ≤ e * Real.exp x
  log : ∀ x, 0 < x → |L.log x - Real.log x| ≤ e * |Real.log x|
  cos : ∀ x, |L.cos x - Real.cos x| ≤ e * |Real.cos x|
  sin : ∀ x, |L.sin x - Real.sin x| ≤ e * |Real.sin x|
  acos : ∀ x, |x| ≤ 1 → |L.acos x - Real.arccos x| ≤ e * Real.arccos x
  atan2 : ∀ y x, |L.atan2 y x - Complex.arg ⟨x, y⟩| ≤ e * |Complex.arg ⟨x, y⟩|
  hypot : ∀ x y, |L.hypot x y - Real.sqrt (x ^ 2 + y ^ 2)| ≤ e * Real.sqrt (x ^ 2 + y ^ 2)
  le_hypot : ∀ x y, IsFloat p x → |x| ≤ L.hypot x y
  hypot_zero : ∀ x, IsFloat p x → L.hypot x 0 = |x|
  exp_zero : L.exp 0 = 1
  cos_zero : L.cos 0 = 1

/-- `Angle(q)` — Quaternion/Math.hpp:16-19. -/
noncomputable def qangle (fl : ℝ → ℝ) (L : CMath) (len : (Fin 3 → ℝ) → ℝ) (q : Quat ℝ l) : ℝ := fl (2 * L.atan2 (len q.vec) q.s)

/-- `Axis(q)` — Quaternion/Math.hpp:24-27. -/
def qaxis (norm : (Fin 3 → ℝ) → Fin 3 → ℝ) (q : Quat ℝ l) : Fin 3 → ℝ := norm q.vec

/-- `Exp(q)` — Quaternion/Math.hpp:86-96. The quaternion on line 95 is in the default layout and is converted to the layout of the argument. -/
noncomputable def qexp (fl : ℝ → ℝ) (L : CMath) (len : (Fin 3 → ℝ) → ℝ) (norm : (Fin 3 → ℝ) → Fin 3 → ℝ) (q : Quat ℝ l) : Quat ℝ l :=
  let scalar := q.s
  let vector := q.vec
  let vectorLength := len vector
  let scalarExp := L.exp scalar
  let vectorNormalized := norm vector
  let r : Quat ℝ .scalarFirst := Quat.ofParts .scalarFirst (L.cos vectorLength) fun t => fl (vectorNormalized t * L.sin vectorLength)
  Quat.convert l (⟨fun t => fl (scalarExp * r.elements t)⟩ : Quat ℝ .scalarFirst)

open Classical in
/-- `Log(q)` — Quaternion/Math.hpp:100-110. `none` is `0 / 0` and `log 0`, or the NaN that `acos` returns outside of `[-1, 1]`. -/
noncomputable def qlog (fl : ℝ → ℝ) (L : CMath) (len : (Fin 3 → ℝ) → ℝ) (norm : (Fin 3 → ℝ) → Fin 3 → ℝ) (q : Quat ℝ l) : Option (Quat ℝ l) :=
  let scalar := q.s
  let vector := q.vec
  let vectorLength := len vector
  let quatLength := L.hypot scalar vectorLength
  let vectorNormalized := norm vector
  if quatLength = 0 then none
  else if 1 < |fl (scalar / quatLength)| then none
  else some (Quat.ofParts l (L.log quatLength) fun t => fl (vectorNormalized t * L.acos (fl (scalar / quatLength))))

/-- `Pow(q, a)` — Quaternion/Math.hpp:114-117; `a * Log(q)` is Quaternion/Arithmetic.hpp:160-166. -/
noncomputable def qpow (fl : ℝ → ℝ) (L : CMath) (len : (Fin 3 → ℝ) → ℝ) (norm : (Fin 3 → ℝ) → Fin 3 → ℝ) (q : Quat ℝ l) (a : ℝ) : Option (Quat ℝ l) :=
  (qlog fl L len norm q).map fun g => qexp fl L len norm (⟨fun t => fl (a * g.elements t)⟩ : Quat ℝ l)

end Mathter.Fl
