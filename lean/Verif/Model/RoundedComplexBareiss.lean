import Verif.Model.RoundedComplexDeterminant

/-!
# Rounded evaluation of the determinant of complex matrices of dimension 5 and above

`impl::BareissAlgorithm` (`include/Mathter/Matrix/Math.hpp`) for complex element types, without overflow or underflow: `op a b c d` is the rounded `a * b - c * d`
(`pdC`), `dv` the division. The pivot search only compares and moves values, so that it is the one of `Model/Determinant`.
-/

namespace Mathter.Fl
variable {n : ℕ}

/-- The elimination loops — Matrix/Math.hpp:258-262 (in place, row by row). -/
noncomputable def bareissElimC (dv : ℂ → ℂ → ℂ) (op : ℂ → ℂ → ℂ → ℂ → ℂ) (k : Fin n) (minor : ℂ) (a : Fin n → Fin n → ℂ) : Fin n → Fin n → ℂ :=
  forUp n (k.val + 1) (fun i a => forUp n (k.val + 1) (fun j a =>
    fun r c => if r = i ∧ c = j then dv (op (a i j) (a k k) (a i k) (a k j)) minor else a r c) a) a

open Classical in
/-- One iteration of the outer loop — Matrix/Math.hpp:238-263; `none` is the early `return 0`. -/
noncomputable def bareissStepC (dv : ℂ → ℂ → ℂ) (op : ℂ → ℂ → ℂ → ℂ → ℂ) (k : Fin n) (s : Option (Bareiss ℂ n)) : Option (Bareiss ℂ n) :=
  s.bind fun b =>
    if hk : k.val = 0 then some ⟨bareissElimC dv op k 1 b.inPlace, b.flipSign⟩
    else
      let kp : Fin n := ⟨k.val - 1, by omega⟩
      let (b', minor) := forUp n k.val (bareissPivotStep kp) (b, b.inPlace kp kp)
      if minor = 0 then none else some ⟨bareissElimC dv op k minor b'.inPlace, b'.flipSign⟩

/-- `BareissAlgorithm`, the `Determinant` of dimension 5 and above (and 1) — Matrix/Math.hpp:234-274 for `Dim = n + 1`. -/
noncomputable def bareissC (dv : ℂ → ℂ → ℂ) (op : ℂ → ℂ → ℂ → ℂ → ℂ) (m : Matrix (Fin (n + 1)) (Fin (n + 1)) ℂ) : ℂ :=
  match forUp n 0 (fun k => bareissStepC dv op k.castSucc) (some ⟨fun i j => m i j, false⟩) with
  | none => 0
  | some b => if b.flipSign then -b.inPlace (Fin.last n) (Fin.last n) else b.inPlace (Fin.last n) (Fin.last n)

end Mathter.Fl
