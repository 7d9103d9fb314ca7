import Verif.Spec.Rounding

/-!
# Constants and conversion of angles in floating point

`Constants`, `Rad2Deg` and `Deg2Rad` of `include/Mathter/Utility.hpp` for real floating point types. The literals have the type `long double`: `flL` rounds them
to that format, and the conversion to `Scalar` rounds again (`fl`). There is no overflow or underflow.
-/

namespace Mathter.Fl

/-- The literal of `Constants::Pi` — Utility.hpp:25. -/
noncomputable def piLit : ℝ := 3.1415926535897932384626433832795028841971693993751

/-- The literal of `Constants::PiHalf` — Utility.hpp:26. -/
noncomputable def piHalfLit : ℝ := 1.5707963267948966192313216916397514420985846996876

/-- The literal of `Constants::PiFourth` — Utility.hpp:27. -/
noncomputable def piFourthLit : ℝ := 0.78539816339744830961566084581987572104929234984378

/-- The literal of `Constants::E` — Utility.hpp:28. -/
noncomputable def eLit : ℝ := 2.7182818284590452353602874713526624977572470937

/-- The literal of `Constants::Sqrt2` — Utility.hpp:29. -/
noncomputable def sqrt2Lit : ℝ := 1.4142135623730950488016887242096980785696718753769

/-- The literal of `Constants::SqrtHalf` — Utility.hpp:30. -/
noncomputable def sqrtHalfLit : ℝ := 0.70710678118654752440084436210484903928483593768847

/-- `Scalar(…L)`: the literal in `long double`, converted to `Scalar` — Utility.hpp:25-30. -/
def constant (fl flL : ℝ → ℝ) (lit : ℝ) : ℝ := fl (flL lit)

/-- `Rad2Deg` of a number of the format of `ComputeT` (or an integer that it represents exactly), whose rounding is `fl` — Utility.hpp:36-42. -/
noncomputable def rad2Deg (fl flL : ℝ → ℝ) (rad : ℝ) : ℝ := fl (fl (rad / constant fl flL piLit) * fl 180)

/-- `Deg2Rad` — Utility.hpp:44-50; as `rad2Deg`. -/
noncomputable def deg2Rad (fl flL : ℝ → ℝ) (deg : ℝ) : ℝ := fl (fl (deg / fl 180) * constant fl flL piLit)

end Mathter.Fl
