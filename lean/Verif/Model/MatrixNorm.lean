import Mathlib.Analysis.RCLike.Basic
import Mathlib.Analysis.SpecialFunctions.Pow.NNReal
import Verif.Model.Element

/-! # Matrix norms at element level — `include/Mathter/Matrix/Math.hpp`:112-151 -/

namespace Mathter
universe u
variable {𝕜 : Type u} [RCLike 𝕜] {r n : ℕ}

/-- `Max(m)` of a real matrix (C32): its largest element. Matrix/Math.hpp:34-43. -/
noncomputable def maxElemR (m : Matrix (Fin (r + 1)) (Fin (n + 1)) ℝ) : ℝ :=
  Finset.univ.sup' Finset.univ_nonempty (fun ij : Fin (r + 1) × Fin (n + 1) => m ij.1 ij.2)

/-- `NormSquared(m) = Sum(Real(Hadamard(m, Conj(m))))` — Matrix/Math.hpp:113-116. -/
noncomputable def matNormSquared (m : Matrix (Fin r) (Fin n) 𝕜) : ℝ := ∑ i, ∑ j, RCLike.re (m i j * star (m i j))

/-- `Norm(m)` — Matrix/Math.hpp:120-123. -/
noncomputable def matNorm (m : Matrix (Fin r) (Fin n) 𝕜) : ℝ := Real.sqrt (matNormSquared m)

open Classical in
/-- `NormPrecise(m)`, complex branch — Matrix/Math.hpp:128-139. -/
noncomputable def normPreciseComplex (m : Matrix (Fin (r + 1)) (Fin (n + 1)) ℂ) : ℝ :=
  let re : Matrix (Fin (r + 1)) (Fin (n + 1)) ℝ := Matrix.of fun i j => |(m i j).re|
  let im : Matrix (Fin (r + 1)) (Fin (n + 1)) ℝ := Matrix.of fun i j => |(m i j).im|
  let maxElement := max (maxElemR re) (maxElemR im)
  if maxElement = 0 then 0
  else
    let sq : Fin (r + 1) → Fin (n + 1) → ℝ := fun i j => re i j / maxElement * (re i j / maxElement) + im i j / maxElement * (im i j / maxElement)
    Real.sqrt (∑ i, ∑ j, sq i j) * maxElement

open Classical in
/-- `NormPrecise(m)`, real branch — Matrix/Math.hpp:141-150. -/
noncomputable def normPreciseReal (m : Matrix (Fin (r + 1)) (Fin (n + 1)) ℝ) : ℝ :=
  let re : Matrix (Fin (r + 1)) (Fin (n + 1)) ℝ := Matrix.of fun i j => |m i j|
  let maxElement := maxElemR re
  if maxElement = 0 then 0
  else
    let sq : Fin (r + 1) → Fin (n + 1) → ℝ := fun i j => re i j / maxElement * (re i j / maxElement)
    Real.sqrt (∑ i, ∑ j, sq i j) * maxElement

end Mathter
