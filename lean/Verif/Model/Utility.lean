import Mathlib.Analysis.Complex.Norm
import Mathlib.Data.Int.Order.Basic
import Mathlib.Tactic.Linarith

/-!
# Model of the utilities

`Common/OptimizationUtil.hpp`, the scalar functions of `Utility.hpp` (`Rad2Deg`, `Deg2Rad` are in `Model/IoStream.lean`) and the scalar
`Normalize` of `Common/MathUtil.hpp`.
-/

namespace Mathter

/-- `for (auto i = First; i < Last; i += Step)` — OptimizationUtil.hpp:49-51: the indices visited. `none` is a loop that only ends by
overflowing. -/
def plainLoop (step last : ℤ) (i : ℤ) : Option (List ℤ) :=
  if i < last then
    if 0 < step then (plainLoop step last (i + step)).map (i :: ·) else none
  else some []
termination_by (last - i).toNat
decreasing_by omega

/-- `0 < Step ? First < Last : First > Last` — OptimizationUtil.hpp:43. -/
def notReached (step last first : ℤ) : Bool := if 0 < step then decide (first < last) else decide (first > last)

/-- `ForUnrolled` — OptimizationUtil.hpp:34-53: the indices for which the function is called, in order. `Step` is not zero. Overflow of
`ptrdiff_t` is not modelled. -/
def forUnrolled (step last limit : ℤ) (hstep : step ≠ 0) (first : ℤ) : Option (List ℤ) :=
  if (last - first).tdiv step ≤ limit then
    if notReached step last first then (forUnrolled step last limit hstep (first + step)).map (first :: ·) else some []
  else plainLoop step last first
termination_by if 0 < step then (last - first).toNat else (first - last).toNat
decreasing_by
  rename_i h
  rw [notReached] at h
  split_ifs at h ⊢ <;> rw [decide_eq_true_eq] at h <;> omega

/-- `Clamp(arg, lower, upper)` for scalars — Utility.hpp:55-59; `std::clamp` has no defined behaviour for `upper < lower`. -/
def scalarClamp {K : Type*} [LinearOrder K] (arg lower upper : K) : Option K :=
  if upper < lower then none
  else some (if arg < lower then lower else if upper < arg then upper else arg)

/-- `Saturate(arg)` — Utility.hpp:61-65. -/
def scalarSaturate {K : Type*} [LinearOrder K] [Zero K] [One K] (arg : K) : Option K := scalarClamp arg 0 1

/-- `Normalize(x)` of a real number — MathUtil.hpp:25-28. `neg` is the sign bit of a zero. -/
noncomputable def scalarNormalize (neg : Bool) (x : ℝ) : ℝ := if x < 0 ∨ (x = 0 ∧ neg = true) then -1 else 1

/-- `Normalize(z)` of a complex number — MathUtil.hpp:31-39. For zero the prescaler is infinite and the magnitude is not a number. -/
noncomputable def complexNormalize (z : ℂ) : ℂ :=
  let absReal := |z.re|
  let absImag := |z.im|
  if max absReal absImag = 0 then 1
  else
    let prescaler := 1 / max absReal absImag
    let zp := z * (prescaler : ℂ)
    let mag := Real.sqrt (Complex.normSq zp)
    zp / (mag : ℂ)

end Mathter
