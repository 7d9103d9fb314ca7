import Verif.Model.Loop

/-!
# Simulation rules for counted loops
-/

namespace Mathter

universe u
variable {σ : Type u}

/-- Simulation rule for `forUp` with a relation that depends on the loop variable. -/
theorem forUp_rel_idx {τ : Type _} {n lo : Nat} {body : Fin n → σ → σ} {body' : Fin n → τ → τ} {s : σ} {t : τ}
    (R : Nat → σ → τ → Prop) (hlo : lo ≤ n) (h0 : R lo s t)
    (hs : ∀ (i : Fin n) s t, lo ≤ i.val → R i.val s t → R (i.val + 1) (body i s) (body' i t)) :
    R n (forUp n lo body s) (forUp n lo body' t) := by
  have key : ∀ (fuel i : Nat) (s : σ) (t : τ), lo ≤ i → i + fuel = n → R i s t → R n (forUpAux n body fuel i s) (forUpAux n body' fuel i t) := by
    intro fuel
    induction fuel with
    | zero => intro i s t _ h hr; have : i = n := by omega
              subst this; exact hr
    | succ fuel ih =>
      intro i s t hi h hr
      have hn : i < n := by omega
      rw [forUpAux, forUpAux, dif_pos hn, dif_pos hn]
      exact ih _ _ _ (by omega) (by omega) (hs ⟨i, hn⟩ s t hi hr)
  exact key _ _ _ _ (Nat.le_refl _) (by omega) h0

/-- Simulation rule for `forDown`. -/
theorem forDown_rel {τ : Type _} {n : Nat} {body : Fin n → σ → σ} {body' : Fin n → τ → τ} {s : σ} {t : τ}
    (R : Nat → σ → τ → Prop) (h0 : R n s t) (hs : ∀ (i : Fin n) s t, R (i.val + 1) s t → R i.val (body i s) (body' i t)) :
    R 0 (forDown n body s) (forDown n body' t) := by
  induction n generalizing s t with
  | zero => exact h0
  | succ n ih =>
    rw [forDown, forDown]
    apply ih
    · exact hs (Fin.last n) s t h0
    · intro i s t h; exact hs i.castSucc s t h

end Mathter
