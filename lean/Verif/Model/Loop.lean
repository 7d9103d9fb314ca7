/-!
# Counted loops

`for (size_t i = lo; i < n; ++i) { body }` of the C++ sources, as a total function on the tuple of mutated locals.
The loop variable is handed to the body as a `Fin n`, so an index used by the body is in range by typing.
-/

namespace Mathter

universe u
variable {σ : Type u}

/-- Iterations of `for (i = lo; i < n; ++i)`; `fuel` is the number of iterations that may still run. (used for all counted loops, e.g. Matrix/Arithmetic.hpp:82-98.) -/
def forUpAux (n : Nat) (body : Fin n → σ → σ) : (fuel i : Nat) → σ → σ
  | 0, _, s => s
  | fuel + 1, i, s => if h : i < n then forUpAux n body fuel (i + 1) (body ⟨i, h⟩ s) else s

/-- Models the C++ statement `for (i = lo; i < n; ++i) s = body(i, s)`. (used for all counted loops, e.g. Matrix/Arithmetic.hpp:82-98.) -/
def forUp (n lo : Nat) (body : Fin n → σ → σ) (s : σ) : σ := forUpAux n body (n - lo) lo s

/-- Models the C++ statement `for (i = n - 1; i >= 0; --i) s = body(i, s)`
(also written `for (i = n; i-- > 0;)` or with reverse iterators). (e.g. Matrix/Algorithm.hpp:20-45.) -/
def forDown : (n : Nat) → (body : Fin n → σ → σ) → σ → σ
  | 0, _, s => s
  | n + 1, body, s => forDown n (fun i => body i.castSucc) (body (Fin.last n) s)

theorem forUpAux_inv {n : Nat} {body : Fin n → σ → σ} (P : Nat → σ → Prop) (lo : Nat)
    (hs : ∀ (i : Fin n) (s : σ), lo ≤ i.val → P i.val s → P (i.val + 1) (body i s)) :
    ∀ (fuel i : Nat) (s : σ), lo ≤ i → i + fuel = n → P i s → P n (forUpAux n body fuel i s)
  | 0, i, s, _, h, hp => by
      have : i = n := by omega
      subst this; exact hp
  | fuel + 1, i, s, hlo, h, hp => by
      have hi : i < n := by omega
      rw [forUpAux, dif_pos hi]
      exact forUpAux_inv P lo hs fuel (i + 1) _ (by omega) (by omega) (hs ⟨i, hi⟩ s hlo hp)

/-- Loop invariant rule for `forUp`. -/
theorem forUp_inv {n lo : Nat} {body : Fin n → σ → σ} {s : σ} (P : Nat → σ → Prop) (hlo : lo ≤ n)
    (h0 : P lo s) (hs : ∀ (i : Fin n) (s : σ), lo ≤ i.val → P i.val s → P (i.val + 1) (body i s)) :
    P n (forUp n lo body s) :=
  forUpAux_inv P lo hs (n - lo) lo s (Nat.le_refl _) (by omega) h0

theorem forUp_ge {n lo : Nat} {body : Fin n → σ → σ} {s : σ} (h : n ≤ lo) : forUp n lo body s = s := by
  unfold forUp
  have : n - lo = 0 := by omega
  rw [this, forUpAux]

theorem forUp_step {n lo : Nat} {body : Fin n → σ → σ} {s : σ} (h : lo < n) :
    forUp n lo body s = forUp n (lo + 1) body (body ⟨lo, h⟩ s) := by
  unfold forUp
  have : n - lo = (n - (lo + 1)) + 1 := by omega
  rw [this, forUpAux, dif_pos h]

/-- Loop invariant rule for `forDown`: `P k` holds when the indices `k, …, n-1` have been processed. -/
theorem forDown_inv {n : Nat} {body : Fin n → σ → σ} {s : σ} (P : Nat → σ → Prop)
    (h0 : P n s) (hs : ∀ (i : Fin n) (s : σ), P (i.val + 1) s → P i.val (body i s)) :
    P 0 (forDown n body s) := by
  induction n generalizing s with
  | zero => exact h0
  | succ n ih =>
    rw [forDown]
    apply ih
    · exact hs (Fin.last n) s h0
    · intro i s h; exact hs i.castSucc s h

/-- Two loops with bodies related pointwise give related results. -/
theorem forUp_congr {n lo : Nat} {body body' : Fin n → σ → σ} {s : σ} (h : ∀ i s, body i s = body' i s) :
    forUp n lo body s = forUp n lo body' s := by
  have : body = body' := by funext i s; exact h i s
  rw [this]

/-- Simulation rule for `forUp`: related states stay related. -/
theorem forUp_rel {τ : Type _} {n lo : Nat} {body : Fin n → σ → σ} {body' : Fin n → τ → τ} {s : σ} {t : τ}
    (R : σ → τ → Prop) (h0 : R s t) (hs : ∀ i s t, R s t → R (body i s) (body' i t)) :
    R (forUp n lo body s) (forUp n lo body' t) := by
  unfold forUp
  generalize n - lo = fuel
  induction fuel generalizing lo s t with
  | zero => exact h0
  | succ fuel ih =>
    rw [forUpAux, forUpAux]
    split
    · exact ih (hs _ _ _ h0)
    · exact h0

end Mathter
