import Mathlib.Data.Real.Basic

/-!
# The matrices of a rounded Bareiss elimination
-/

namespace Mathter.Fl
variable {n : ℕ}

/-- The divisor of iteration `k`: 1, or the previous pivot. -/
noncomputable def prevPivot (X : ℕ → Fin (n + 1) → Fin (n + 1) → ℝ) : ℕ → ℝ
  | 0 => 1
  | k + 1 => X k ⟨min k n, by omega⟩ ⟨min k n, by omega⟩

/-- The matrices `X 0 = A`, `X 1`, … that the steps of the elimination produce, one from the other, in rounded arithmetic and without exchanging rows. -/
def BareissRun (fl : ℝ → ℝ) (pd : ℝ → ℝ → ℝ → ℝ → ℝ) (A : Fin (n + 1) → Fin (n + 1) → ℝ) (X : ℕ → Fin (n + 1) → Fin (n + 1) → ℝ) : Prop :=
  (∀ i j, X 0 i j = A i j) ∧ ∀ (k : Fin n) (i j : Fin (n + 1)),
    X (k.val + 1) i j = if k.castSucc < i ∧ k.castSucc < j then
      fl (pd (X k.val i j) (X k.val k.castSucc k.castSucc) (X k.val i k.castSucc) (X k.val k.castSucc j) / prevPivot X k.val) else X k.val i j

end Mathter.Fl
