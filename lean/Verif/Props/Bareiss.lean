import Mathlib.LinearAlgebra.Matrix.Determinant.Misc
import Mathlib.LinearAlgebra.Matrix.Permutation
import Mathlib.Algebra.Field.Rat
import Verif.Lemmas.BareissZero

/-!
# Property C29: the determinant of dimension 5 and above (and 1)

The property is false as stated: when a leading principal minor vanishes, the pivot search of `BareissAlgorithm` returns wrong values.
`C29_violated` gives a counterexample in every dimension for which the algorithm is selected. `C29_bareiss_partial` proves the property
for all matrices whose leading principal minors of order `1 … Dim-2` are nonzero; for every other matrix the result is zero (`C29_zero_partial`), so that
`C29_exact_partial` tells exactly where the property holds.
-/

namespace Mathter.Props
open Mathter
universe u
variable {R : Type u} [CommRing R]

/-- Leading principal submatrix of order `s`. -/
def leading {n : ℕ} (m : Matrix (Fin n) (Fin n) R) (s : ℕ) (h : s ≤ n) : Matrix (Fin s) (Fin s) R :=
  m.submatrix (Fin.castLE h) (Fin.castLE h)

private theorem detN_leading {n : ℕ} (A : Matrix (Fin (n + 1)) (Fin (n + 1)) R) (s : ℕ) (h : s ≤ n + 1) :
    detN (fun a b => A ⟨min a n, by omega⟩ ⟨min b n, by omega⟩) s = (leading A s h).det := by
  unfold detN leading
  congr 1
  ext a b
  have ha : min a.val n = a.val := by omega
  have hb : min b.val n = b.val := by omega
  simp only [Matrix.of_apply, Matrix.submatrix_apply]
  rw [show (⟨min a.val n, by omega⟩ : Fin (n + 1)) = Fin.castLE h a from Fin.ext ha,
    show (⟨min b.val n, by omega⟩ : Fin (n + 1)) = Fin.castLE h b from Fin.ext hb]

/-- Before iteration `t`, as long as no pivot was zero. -/
private def Good {n : ℕ} (m : Matrix (Fin (n + 1)) (Fin (n + 1)) R) (t : ℕ) (s : Option (Bareiss R (n + 1))) : Prop :=
  ∃ X d, s = some (⟨X, false⟩ : Bareiss R (n + 1)) ∧ BareissInv (fun i j => m i j) X t d ∧ (t = 0 → d = 1) ∧
    ∀ (_ : t ≠ 0) (h' : t ≤ n), X ⟨t - 1, by omega⟩ ⟨t - 1, by omega⟩ = d ∧ d = (leading m t (by omega)).det

private theorem good_step [IsDomain R] [DecidableEq R] (div : R → R → R) (hdiv : ∀ a b, b ≠ 0 → div (a * b) b = a) {n : ℕ}
    (m : Matrix (Fin (n + 1)) (Fin (n + 1)) R) (k : Fin n) (s : Option (Bareiss R (n + 1))) (hG : Good m k.val s)
    (hk : (leading m k.val (by omega)).det ≠ 0) :
    ((leading m (k.val + 1) (by omega)).det ≠ 0 ∨ n ≤ k.val + 1 → Good m (k.val + 1) (bareissStep div k.castSucc s)) ∧
    ((leading m (k.val + 1) (by omega)).det = 0 → BareissZero k.val (k.val + 1) (bareissStep div k.castSucc s)) := by
  obtain ⟨X, d, rfl, hI, h0, hd⟩ := hG
  have hkn : k.val ≤ n := by omega
  have hpiv : X k.castSucc k.castSucc = (leading m (k.val + 1) (by omega)).det := by
    have := bareissInv_entry hI (fun t => ⟨min t n, by omega⟩) (fun t => ⟨min t n, by omega⟩) (by intro t ht; simp; omega)
      (by intro t ht; simp; omega) (by intro t ht; simp; omega) (by intro t ht; simp; omega)
    rw [← detN_leading, ← this]
    have hk : min k.val n = k.val := by omega
    rw [show (⟨min k.val n, by omega⟩ : Fin (n + 1)) = k.castSucc from Fin.ext hk]
  have hd0 : d ≠ 0 := by
    by_cases hk0 : k.val = 0
    · rw [h0 hk0]; exact one_ne_zero
    · rw [(hd hk0 hkn).2]; exact hk
  have hstep : bareissStep div k.castSucc (some ⟨X, false⟩) = some ⟨bareissElim div k.castSucc d X, false⟩ := by
    by_cases hk0 : k.val = 0
    · simp [bareissStep, hk0, h0 hk0]
    · simp only [bareissStep, Option.bind_some, Fin.val_castSucc, hk0, dif_neg, not_false_eq_true]
      rw [(hd hk0 hkn).1, bareissPivot_nonzero _ _ _ _ hd0]
      simp [hd0]
  rw [hstep]
  refine ⟨fun hp => ⟨_, X k.castSucc k.castSucc, rfl, ?_, fun h => by omega, fun _ _ => ⟨?_, hpiv⟩⟩, fun hz => ?_⟩
  · exact bareissInv_step (k := k.castSucc) div hdiv hI hd0 (by
      rw [hpiv]
      exact hp.imp_right fun h => by simp only [Fin.val_castSucc]; omega)
  · have e : bareissElim div k.castSucc d X k.castSucc k.castSucc = X k.castSucc k.castSucc := by
      rw [bareissElim_eq]; simp
    rw [← e]
    rfl
  · exact bareissZero_start (k := k.castSucc) div hdiv hI hd0 (hpiv.trans hz) false

private theorem good_init {n : ℕ} (m : Matrix (Fin (n + 1)) (Fin (n + 1)) R) : Good m 0 (some ⟨fun i j => m i j, false⟩) :=
  ⟨_, 1, rfl, bareissInv_init _, fun _ => rfl, fun h => absurd rfl h⟩

/-- C29, partial: over any integral domain whose division is exact on multiples, the Bareiss algorithm returns the determinant of every
matrix, of any dimension, whose leading principal minors of order `1 … Dim-2` are nonzero. -/
theorem C29_bareiss_partial [IsDomain R] [DecidableEq R] (div : R → R → R) (hdiv : ∀ a b, b ≠ 0 → div (a * b) b = a) {n : ℕ}
    (m : Matrix (Fin (n + 1)) (Fin (n + 1)) R) (hm : ∀ s (h : s + 1 ≤ n), (leading m s (by omega)).det ≠ 0) :
    bareiss div m = m.det := by
  have main := forUp_inv (n := n) (lo := 0) (body := fun k => bareissStep div k.castSucc) (s := some ⟨fun i j => m i j, false⟩)
    (Good m) (Nat.zero_le _) (good_init m) (fun k s _ hG => (good_step div hdiv m k s hG (hm _ (by omega))).1 (by
      by_cases h : n ≤ k.val + 1
      · exact Or.inr h
      · exact Or.inl (hm _ (by omega))))
  obtain ⟨X, d, hX, hI, -⟩ := main
  unfold bareiss
  rw [hX]
  simp only [Bool.false_eq_true, if_false]
  have := bareissInv_entry hI (fun t => ⟨min t n, by omega⟩) (fun t => ⟨min t n, by omega⟩) (by intro t ht; simp; omega)
    (by intro t ht; simp; omega) (by intro t ht; simp; omega) (by intro t ht; simp; omega)
  rw [detN_leading m (n + 1) (le_refl _)] at this
  have hl : (⟨min n n, by omega⟩ : Fin (n + 1)) = Fin.last n := Fin.ext (by simp)
  rw [hl] at this
  rw [this]
  rfl

/-- C29, partial: the result for all other matrices is zero, whatever their determinant is. -/
theorem C29_zero_partial [IsDomain R] [DecidableEq R] (div : R → R → R) (hdiv : ∀ a b, b ≠ 0 → div (a * b) b = a) {n : ℕ}
    (m : Matrix (Fin (n + 1)) (Fin (n + 1)) R) (hm : ∃ (s : ℕ) (h : s + 1 ≤ n), (leading m s (by omega)).det = 0) : bareiss div m = 0 := by
  classical
  -- the first leading principal minor that is zero
  obtain ⟨k, hk, hz, hlt⟩ : ∃ (k : ℕ) (h : k + 2 ≤ n), (leading m (k + 1) (by omega)).det = 0 ∧ ∀ s (h : s ≤ k), (leading m s (by omega)).det ≠ 0 := by
    obtain ⟨t, ⟨h1, h2⟩, h3⟩ : ∃ t, (∃ h : t + 1 ≤ n, (leading m t (by omega)).det = 0) ∧
        ∀ s, s < t → ¬ ∃ h : s + 1 ≤ n, (leading m s (by omega)).det = 0 := ⟨_, Nat.find_spec hm, fun t => Nat.find_min hm (m := t)⟩
    rcases t with _ | k
    · rw [Matrix.det_fin_zero] at h2
      exact absurd h2 one_ne_zero
    · exact ⟨k, by omega, h2, fun s hs hz => h3 s (by omega) ⟨by omega, hz⟩⟩
  have main := forUp_inv (n := n) (lo := 0) (body := fun k => bareissStep div k.castSucc) (s := some ⟨fun i j => m i j, false⟩)
    (fun t s => (t ≤ k → Good m t s) ∧ (k < t → BareissZero k t s)) (Nat.zero_le _) ⟨fun _ => good_init m, fun h => absurd h (Nat.not_lt_zero _)⟩ (by
      rintro t s - ⟨h1, h2⟩
      rcases lt_trichotomy t.val k with h | h | h
      · exact ⟨fun _ => (good_step div hdiv m t s (h1 (by omega)) (hlt _ (by omega))).1 (Or.inl (hlt _ (by omega))), fun h' => by omega⟩
      · refine ⟨fun h' => by omega, fun _ => ?_⟩
        have := (good_step div hdiv m t s (h1 (by omega)) (hlt _ (by omega))).2 (by
          subst h
          exact hz)
        rwa [h] at this ⊢
      · exact ⟨fun h' => by omega, fun _ => bareissZero_step div hdiv k t.castSucc h s (h2 h)⟩)
  unfold bareiss
  rcases main.2 (by omega) with e | ⟨b, e, -, h2, -⟩
  · rw [e]
  · rw [e]
    have := h2 hk (Fin.last n) (Fin.last n) hk hk
    simp [this]

/-- C29: exactly for which matrices of dimension 5 and above (and 1) the determinant is right. -/
theorem C29_exact_partial [IsDomain R] [DecidableEq R] (div : R → R → R) (hdiv : ∀ a b, b ≠ 0 → div (a * b) b = a) {n : ℕ}
    (m : Matrix (Fin (n + 1)) (Fin (n + 1)) R) :
    bareiss div m = m.det ↔ m.det = 0 ∨ ∀ s (h : s + 1 ≤ n), (leading m s (by omega)).det ≠ 0 := by
  constructor
  · intro h
    by_contra hn
    push Not at hn
    obtain ⟨h0, hs⟩ := hn
    exact h0 (by rw [← h, C29_zero_partial div hdiv m hs])
  · intro h
    by_cases hs : ∀ s (h : s + 1 ≤ n), (leading m s (by omega)).det ≠ 0
    · exact C29_bareiss_partial div hdiv m hs
    · push Not at hs
      rw [C29_zero_partial div hdiv m hs, h.resolve_right fun h' => by
        obtain ⟨s, hs, e⟩ := hs
        exact h' s hs e]

/-- A matrix of determinant -1 for which the result is 0; its first two leading principal minors are not zero. -/
example : bareiss Int.tdiv (!![1, 0, 0, 0, 0; 0, 1, 0, 0, 0; 0, 0, 0, 1, 0; 0, 0, 1, 0, 0; 0, 0, 0, 0, 1] : Matrix (Fin 5) (Fin 5) ℤ) = 0 :=
  C29_zero_partial _ (fun a _ hb => Int.mul_tdiv_cancel a hb) _ ⟨3, by omega, by decide +kernel⟩

/-- C29, partial, for floating point types in exact arithmetic. -/
theorem C29_field_partial {K : Type u} [Field K] [DecidableEq K] {n : ℕ} (m : Matrix (Fin (n + 1)) (Fin (n + 1)) K)
    (hm : ∀ s (h : s + 1 ≤ n), (leading m s (by omega)).det ≠ 0) : bareiss (· / ·) m = m.det :=
  C29_bareiss_partial _ (fun a _ hb => mul_div_cancel_right₀ a hb) m hm

/-- C29, partial, for integer element types: every truncating division of the algorithm is exact. -/
theorem C29_int_partial {n : ℕ} (m : Matrix (Fin (n + 1)) (Fin (n + 1)) ℤ)
    (hm : ∀ s (h : s + 1 ≤ n), (leading m s (by omega)).det ≠ 0) : bareiss Int.tdiv m = m.det :=
  C29_bareiss_partial _ (fun a _ hb => Int.mul_tdiv_cancel a hb) m hm

/-- C29: dimension 1 (for which the Bareiss algorithm is selected as well) is always right. -/
theorem C29_dim1 [DecidableEq R] (div : R → R → R) (L : Layout) (m : Matrix (Fin 1) (Fin 1) R) : determinant div L m = m.det := by
  rw [Matrix.det_fin_one]
  rfl

/-- The hypotheses are met by a non-trivial matrix. -/
example : ∀ s (h : s + 1 ≤ 4), (leading (!![1, 2, 0, 0, 1; 0, 1, 3, 0, 0; 2, 0, 1, 0, 0; 0, 0, 0, 1, 1; 1, 0, 0, 0, 0]
    : Matrix (Fin 5) (Fin 5) ℤ) s (by omega)).det ≠ 0 := by
  intro s h
  match s, h with
  | 0, _ => decide +revert
  | 1, _ => decide +revert
  | 2, _ => decide +revert
  | 3, _ => decide +revert

/-- The permutation matrix exchanging the first two coordinates. -/
def swap01 (R : Type u) [CommRing R] (n : ℕ) (i j : Fin (n + 2)) : R := if j = Equiv.swap 0 1 i then 1 else 0

theorem det_swap01 (n : ℕ) : (Matrix.of (swap01 R n)).det = -1 := by
  have h : Matrix.of (swap01 R n) = (Equiv.swap (0 : Fin (n + 2)) 1).permMatrix R := by
    ext i j
    simp only [swap01, Matrix.of_apply, Equiv.Perm.permMatrix, PEquiv.toMatrix_apply, Equiv.toPEquiv_apply, Option.mem_def,
      Option.some.injEq]
    congr 1
    exact propext eq_comm
  rw [h, Matrix.det_permutation, Equiv.Perm.sign_swap (by simp)]
  simp

private theorem bareiss_swap01 [Nontrivial R] [DecidableEq R] (div : R → R → R) (n : ℕ) (hn : 1 ≤ n) :
    bareiss div (Matrix.of (swap01 R n)) = 0 := by
  have hnone : forUp (n + 1) 0 (fun k => bareissStep div k.castSucc) (some ⟨swap01 R n, false⟩) = none := by
    rw [forUp_step (by omega), forUp_step (by omega)]
    have h0 : bareissStep div (Fin.castSucc (⟨0, by omega⟩ : Fin (n + 1))) (some ⟨swap01 R n, false⟩)
        = some ⟨bareissElim div 0 1 (swap01 R n), false⟩ := by
      simp [bareissStep]
    rw [h0]
    have hcol : ∀ r : Fin (n + 2), bareissElim div 0 1 (swap01 R n) r 0 = if r = 1 then 1 else 0 := by
      intro r
      rw [bareissElim_eq]
      simp only [lt_self_iff_false, and_false, if_false, swap01]
      congr 1
      apply propext
      constructor
      · intro h
        have := congrArg (Equiv.swap (0 : Fin (n + 2)) 1) h
        simpa using this.symm
      · rintro rfl; simp
    have h1 : bareissStep div (Fin.castSucc (⟨0 + 1, by omega⟩ : Fin (n + 1))) (some ⟨bareissElim div 0 1 (swap01 R n), false⟩) = none := by
      have hloop := forUp_inv (n := n + 2) (lo := 2) (body := bareissPivotStep (0 : Fin (n + 2)))
        (s := bareissPivotStep 0 ⟨1, by omega⟩ (⟨bareissElim div 0 1 (swap01 R n), false⟩, 0))
        (fun _ s => s.2 = 0 ∧ ∀ r : Fin (n + 2), 1 ≤ r.val → s.1.inPlace r 0 = 0) (by omega) (by
          have e1 : (⟨1, by omega⟩ : Fin (n + 2)) = 1 := rfl
          have e2 : (0 : Fin (n + 2)) ≠ 1 := by simp
          have e3 : bareissElim div 0 1 (swap01 R n) 1 0 ≠ 0 := by rw [hcol]; simp
          rw [e1]
          simp only [bareissPivotStep, if_true, e3, ne_eq, not_false_eq_true]
          constructor
          · rw [hcol]; simp
          · intro r hr
            split
            · rw [hcol]; simp
            · rename_i h
              have : r ≠ 0 := by intro e; rw [e] at hr; simp at hr
              rw [if_neg this, hcol, if_neg h]) (by
          rintro i ⟨b, x⟩ hi ⟨hx, hb⟩
          dsimp only at hx hb
          have := hb i (by omega)
          simp only [bareissPivotStep, hx, this]
          simpa using hb)
      have hz : bareissElim div 0 1 (swap01 R n) 0 0 = 0 := by rw [hcol]; simp
      have hstep : forUp (n + 2) 1 (bareissPivotStep (0 : Fin (n + 2))) (⟨bareissElim div 0 1 (swap01 R n), false⟩, 0)
          = forUp (n + 2) 2 (bareissPivotStep 0) (bareissPivotStep 0 ⟨1, by omega⟩ (⟨bareissElim div 0 1 (swap01 R n), false⟩, 0)) :=
        forUp_step (by omega)
      rw [← hstep] at hloop
      have hk : (⟨0 + 1 - 1, by omega⟩ : Fin (n + 2)) = 0 := rfl
      simp only [bareissStep, Option.bind_some, Fin.val_castSucc, Nat.zero_add, one_ne_zero, dif_neg, not_false_eq_true]
      rw [show (⟨1 - 1, by omega⟩ : Fin (n + 2)) = 0 from rfl, hz, if_pos hloop.1]
    rw [h1]
    have := forUp_inv (n := n + 1) (lo := 0 + 1 + 1) (body := fun k => bareissStep div k.castSucc) (s := none)
      (fun _ s => s = none) (by omega) rfl (by rintro i s - rfl; rfl)
    exact this
  unfold bareiss
  simp only [Matrix.of_apply]
  rw [hnone]

/-- C29 is violated: in every dimension for which `BareissAlgorithm` is selected (5 and above) and for every element type, the
permutation matrix exchanging two coordinates has determinant `-1`, but `Determinant` returns `0`. -/
theorem C29_violated [Nontrivial R] [DecidableEq R] (div : R → R → R) (L : Layout) (n : ℕ) :
    ∃ m : Matrix (Fin (n + 5)) (Fin (n + 5)) R, m.det = -1 ∧ determinant div L m = 0 :=
  ⟨Matrix.of (swap01 R (n + 3)), det_swap01 _, bareiss_swap01 div _ (by omega)⟩

end Mathter.Props
