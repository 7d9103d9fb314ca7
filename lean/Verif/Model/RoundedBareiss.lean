import Verif.Model.RoundedDeterminant

/-!
# Rounded evaluation of the determinant of dimension 5 and above

`impl::BareissAlgorithm` (`include/Mathter/Matrix/Math.hpp`) for real element types with a rounding `fl` after every operation, without overflow or underflow.
`pd a b c d` is the rounded `a * b - c * d`, fused or not. The pivot search only compares and moves values, so that it is the one of `Model/Determinant`.
-/

namespace Mathter.Fl
variable {n : ℕ}

/-- The elimination loops — Matrix/Math.hpp:258-262 (in place, row by row). -/
noncomputable def bareissElim (fl : ℝ → ℝ) (pd : ℝ → ℝ → ℝ → ℝ → ℝ) (k : Fin n) (minor : ℝ) (a : Fin n → Fin n → ℝ) : Fin n → Fin n → ℝ :=
  forUp n (k.val + 1) (fun i a => forUp n (k.val + 1) (fun j a =>
    fun r c => if r = i ∧ c = j then fl (pd (a i j) (a k k) (a i k) (a k j) / minor) else a r c) a) a

/-- One iteration of the outer loop — Matrix/Math.hpp:238-263; `none` is the early `return 0`. -/
noncomputable def bareissStep (fl : ℝ → ℝ) (pd : ℝ → ℝ → ℝ → ℝ → ℝ) (k : Fin n) (s : Option (Bareiss ℝ n)) : Option (Bareiss ℝ n) :=
  s.bind fun b =>
    if hk : k.val = 0 then some ⟨bareissElim fl pd k 1 b.inPlace, b.flipSign⟩
    else
      let kp : Fin n := ⟨k.val - 1, by omega⟩
      let (b', minor) := forUp n k.val (bareissPivotStep kp) (b, b.inPlace kp kp)
      if minor = 0 then none else some ⟨bareissElim fl pd k minor b'.inPlace, b'.flipSign⟩

/-- `BareissAlgorithm`, the `Determinant` of dimension 5 and above (and 1) — Matrix/Math.hpp:234-274 for `Dim = n + 1`. -/
noncomputable def bareiss (fl : ℝ → ℝ) (pd : ℝ → ℝ → ℝ → ℝ → ℝ) (m : Matrix (Fin (n + 1)) (Fin (n + 1)) ℝ) : ℝ :=
  match forUp n 0 (fun k => bareissStep fl pd k.castSucc) (some ⟨fun i j => m i j, false⟩) with
  | none => 0
  | some b => if b.flipSign then -b.inPlace (Fin.last n) (Fin.last n) else b.inPlace (Fin.last n) (Fin.last n)

end Mathter.Fl
