import Mathlib.LinearAlgebra.Matrix.Determinant.Basic
import Mathlib.Tactic.LinearCombination
import Mathlib.Tactic.Ring
import Verif.Model.Determinant

/-! Helper lemmas for the Bareiss determinant. -/

namespace Mathter
universe u
variable {R : Type u} [CommRing R]

/-- Determinant of the leading `s × s` block of an infinite table. -/
def detN (f : ℕ → ℕ → R) (s : ℕ) : R := Matrix.det (Matrix.of fun a b : Fin s => f a b)

/-- Chió's condensation. -/
theorem chio (f : ℕ → ℕ → R) (m : ℕ) : f 0 0 ^ (m + 1) * detN f (m + 2)
    = f 0 0 * detN (fun a b => f 0 0 * f (a + 1) (b + 1) - f (a + 1) 0 * f 0 (b + 1)) (m + 1) := by
  let B : Matrix (Fin (m + 2)) (Fin (m + 2)) R := Matrix.of fun a b => f a b
  let v : Fin (m + 2) → R := Fin.cons 1 fun _ => f 0 0
  let C : Matrix (Fin (m + 2)) (Fin (m + 2)) R := Matrix.of fun i j => v i * B i j
  let c : Fin (m + 2) → R := Fin.cons 0 fun i => f (i.val + 1) 0
  let C' : Matrix (Fin (m + 2)) (Fin (m + 2)) R := Matrix.of fun i j => C i j - c i * B 0 j
  have h1 : C.det = f 0 0 ^ (m + 1) * B.det := by
    have := Matrix.det_mul_column v B
    rw [show C = Matrix.of fun i j => v i * B i j from rfl, this, Fin.prod_univ_succ]
    simp [v]
  have h2 : C.det = C'.det := by
    apply Matrix.det_eq_of_forall_row_eq_smul_add_const c 0 (by simp [c])
    intro i j
    simp [C', C, c, v]
  have h3 : C'.det = f 0 0 * detN (fun a b => f 0 0 * f (a + 1) (b + 1) - f (a + 1) 0 * f 0 (b + 1)) (m + 1) := by
    rw [Matrix.det_succ_column_zero, Fin.sum_univ_succ, Finset.sum_eq_zero, add_zero]
    · have e1 : C' 0 0 = f 0 0 := by simp [C', C, c, v, B]
      rw [e1]
      simp only [Fin.val_zero, pow_zero, one_mul, detN]
      congr 2
    · intro i _
      have : C' i.succ 0 = 0 := by
        simp [C', C, c, v, B]; ring
      rw [this]; ring
  rw [← h3, ← h2, h1]
  rfl

theorem chio' [IsDomain R] (f : ℕ → ℕ → R) (m : ℕ) (h : f 0 0 ≠ 0 ∨ m = 0) : f 0 0 ^ m * detN f (m + 2)
    = detN (fun a b => f 0 0 * f (a + 1) (b + 1) - f (a + 1) 0 * f 0 (b + 1)) (m + 1) := by
  by_cases h0 : f 0 0 = 0
  · have hm : m = 0 := by tauto
    subst hm
    rw [show detN f (0 + 2) = f 0 0 * f 1 1 - f 0 1 * f 1 0 from Matrix.det_fin_two _]
    simp [detN]
    ring
  · apply mul_left_cancel₀ h0
    rw [← chio, pow_succ]
    ring

/-- The elimination loops compute every trailing element from the values before the loops. -/
theorem bareissElim_eq {n : ℕ} (div : R → R → R) (k : Fin n) (minor : R) (a : Fin n → Fin n → R) (r c : Fin n) :
    bareissElim div k minor a r c = if k < r ∧ k < c then div (a r c * a k k - a r k * a k c) minor else a r c := by
  have inner : ∀ (i : Fin n) (_ : k.val + 1 ≤ i.val) (x : Fin n → Fin n → R) (r c : Fin n),
      forUp n (k.val + 1) (fun j a => fun r c => if r = i ∧ c = j then div (a i j * a k k - a i k * a k j) minor else a r c) x r c
        = if r = i ∧ k < c then div (x i c * x k k - x i k * x k c) minor else x r c := by
    intro i hi x
    have := forUp_inv (n := n) (lo := k.val + 1)
      (body := fun j a => fun r c => if r = i ∧ c = j then div (a i j * a k k - a i k * a k j) minor else a r c) (s := x)
      (fun t y => ∀ r c : Fin n, y r c = if r = i ∧ k < c ∧ c.val < t then div (x i c * x k k - x i k * x k c) minor else x r c)
      k.isLt (by intro r c; rw [if_neg]; rintro ⟨_, h1, h2⟩; simp only [Fin.lt_def] at h1; omega) (by
        intro j y hj hy r c
        have hki : k ≠ i := by intro e; subst e; omega
        dsimp only
        rw [hy i j, hy k k, hy i k, hy k j, hy r c]
        simp only [Fin.lt_def, hki, lt_self_iff_false, false_and, and_false, if_false]
        by_cases hr : r = i
        · by_cases hc : c = j
          · subst hr hc
            simp
            intro h; omega
          · have : c.val ≠ j.val := fun e => hc (Fin.ext e)
            simp only [hr, hc, and_false, if_false, true_and]
            congr 1
            apply propext
            omega
        · simp [hr])
    intro r c
    rw [this r c]
    simp
  unfold bareissElim
  have := forUp_inv (n := n) (lo := k.val + 1) (body := fun i a => forUp n (k.val + 1) (fun j a =>
    fun r c => if r = i ∧ c = j then div (a i j * a k k - a i k * a k j) minor else a r c) a) (s := a)
    (fun t y => ∀ r c : Fin n, y r c = if (k < r ∧ r.val < t) ∧ k < c then div (a r c * a k k - a r k * a k c) minor else a r c)
    k.isLt (by intro r c; rw [if_neg]; rintro ⟨⟨h1, h2⟩, _⟩; simp only [Fin.lt_def] at h1; omega) (by
      intro i y hi hy r c
      rw [inner i hi y r c, hy i c, hy k k, hy i k, hy k c, hy r c]
      simp only [Fin.lt_def, lt_self_iff_false, false_and, and_false, if_false]
      by_cases hr : r = i
      · subst hr
        have hk : k < r := hi
        simp [hk]
      · have : r.val ≠ i.val := fun e => hr (Fin.ext e)
        simp only [hr, false_and, if_false]
        congr 1
        apply propext
        omega)
  rw [this r c]
  simp

/-- Bareiss invariant before iteration `k` with previous pivot `d`: every square block of trailing rows and columns has the
determinant of the bordered block of the input times a power of `d`. -/
def BareissInv {n : ℕ} (A X : Fin n → Fin n → R) (k : ℕ) (d : R) : Prop :=
  ∀ (m : ℕ) (ρ σ : ℕ → Fin n), (∀ t, t < k → (ρ t).val = t) → (∀ t, t < k → (σ t).val = t) → (∀ t, k ≤ t → k ≤ (ρ t).val) →
    (∀ t, k ≤ t → k ≤ (σ t).val) →
    detN (fun a b => X (ρ (k + a)) (σ (k + b))) (m + 1) = detN (fun a b => A (ρ a) (σ b)) (k + m + 1) * d ^ m

theorem bareissInv_init {n : ℕ} (A : Fin n → Fin n → R) : BareissInv A A 0 1 := by
  intro m ρ σ _ _ _ _
  simp

theorem bareissInv_entry {n : ℕ} {A X : Fin n → Fin n → R} {k : ℕ} {d : R} (h : BareissInv A X k d) (ρ σ : ℕ → Fin n)
    (h1 : ∀ t, t < k → (ρ t).val = t) (h2 : ∀ t, t < k → (σ t).val = t) (h3 : ∀ t, k ≤ t → k ≤ (ρ t).val)
    (h4 : ∀ t, k ≤ t → k ≤ (σ t).val) : X (ρ k) (σ k) = detN (fun a b => A (ρ a) (σ b)) (k + 1) := by
  have := h 0 ρ σ h1 h2 h3 h4
  rw [pow_zero, mul_one] at this
  rw [← this]
  simp [detN]

theorem bareissInv_step [IsDomain R] {n : ℕ} {A X : Fin n → Fin n → R} {k : Fin n} {d : R} (div : R → R → R)
    (hdiv : ∀ a b, b ≠ 0 → div (a * b) b = a) (h : BareissInv A X k.val d) (hd : d ≠ 0)
    (hp : X k k ≠ 0 ∨ n ≤ k.val + 2) : BareissInv A (bareissElim div k d X) (k.val + 1) (X k k) := by
  have num : ∀ r c : Fin n, k < r → k < c → d * bareissElim div k d X r c = X k k * X r c - X r k * X k c := by
    intro r c hr hc
    rw [bareissElim_eq, if_pos ⟨hr, hc⟩]
    have := h 1 (fun t => if t < k.val then ⟨min t (n - 1), by omega⟩ else if t = k.val then k else r)
      (fun t => if t < k.val then ⟨min t (n - 1), by omega⟩ else if t = k.val then k else c)
      (by intro t ht; simp [ht]; omega) (by intro t ht; simp [ht]; omega)
      (by intro t ht; simp only [Fin.lt_def] at hr; simp only [not_lt.2 ht, if_false]; split <;> omega)
      (by intro t ht; simp only [Fin.lt_def] at hc; simp only [not_lt.2 ht, if_false]; split <;> omega)
    simp [detN, Matrix.det_fin_two] at this
    have e : X r c * X k k - X r k * X k c = X k k * X r c - X k c * X r k := by ring
    rw [e, this, hdiv _ _ hd, mul_comm, ← this]
    ring
  intro m ρ σ h1 h2 h3 h4
  have hk1 : ρ k.val = k := Fin.ext (h1 _ (Nat.lt_succ_self _))
  have hk2 : σ k.val = k := Fin.ext (h2 _ (Nat.lt_succ_self _))
  have hX := h (m + 1) ρ σ (fun t ht => h1 t (by omega)) (fun t ht => h2 t (by omega))
    (fun t ht => by
      rcases Nat.lt_or_eq_of_le ht with h' | h'
      · have := h3 t h'; omega
      · rw [← h', hk1])
    (fun t ht => by
      rcases Nat.lt_or_eq_of_le ht with h' | h'
      · have := h4 t h'; omega
      · rw [← h', hk2])
  let f : ℕ → ℕ → R := fun a b => X (ρ (k.val + a)) (σ (k.val + b))
  have hf : f 0 0 = X k k := by simp [f, hk1, hk2]
  by_cases hpm : X k k ≠ 0 ∨ m = 0
  · have hc := chio' f m (by rw [hf]; exact hpm)
    have hs : detN (fun a b => f 0 0 * f (a + 1) (b + 1) - f (a + 1) 0 * f 0 (b + 1)) (m + 1)
        = d ^ (m + 1) * detN (fun a b => bareissElim div k d X (ρ (k.val + 1 + a)) (σ (k.val + 1 + b))) (m + 1) := by
      unfold detN
      have := Matrix.det_smul (Matrix.of fun a b : Fin (m + 1) => bareissElim div k d X (ρ (k.val + 1 + a)) (σ (k.val + 1 + b))) d
      rw [Fintype.card_fin] at this
      rw [← this]
      congr 1
      ext a b
      have hr := h3 (k.val + 1 + a.val) (by omega)
      have hc := h4 (k.val + 1 + b.val) (by omega)
      simp only [Matrix.smul_apply, Matrix.of_apply, smul_eq_mul]
      rw [num _ _ (by simp only [Fin.lt_def]; omega) (by simp only [Fin.lt_def]; omega), hf]
      simp only [f, Nat.add_zero, hk1, hk2]
      rw [show k.val + (a.val + 1) = k.val + 1 + a.val by omega, show k.val + (b.val + 1) = k.val + 1 + b.val by omega]
    rw [hs, hf, show detN f (m + 2) = _ from hX] at hc
    apply mul_left_cancel₀ (pow_ne_zero (m + 1) hd)
    rw [← hc, show k.val + 1 + m + 1 = k.val + (m + 1) + 1 by omega]
    ring
  · -- a zero last pivot leaves a single trailing row: every larger block repeats it
    push Not at hpm
    obtain ⟨hz, hm⟩ := hpm
    have hn : n ≤ k.val + 2 := by tauto
    have hrow : ∀ t, k.val + 1 ≤ t → (ρ t).val = k.val + 1 := fun t ht => by
      have := h3 t ht; have := (ρ t).isLt; omega
    rw [hz, zero_pow hm, mul_zero]
    obtain ⟨m, rfl⟩ := Nat.exists_eq_succ_of_ne_zero hm
    refine Matrix.det_zero_of_row_eq (i := (0 : Fin (m + 2))) (j := 1) (by simp) ?_
    funext b
    simp only [Matrix.of_apply]
    have : ρ (k.val + 1 + ((0 : Fin (m + 2)) : ℕ)) = ρ (k.val + 1 + ((1 : Fin (m + 2)) : ℕ)) := by
      apply Fin.ext
      rw [hrow _ (by omega), hrow _ (by omega)]
    rw [this]

/-- The pivot search does nothing when the pivot is nonzero. -/
theorem bareissPivot_nonzero [DecidableEq R] {n : ℕ} (kp : Fin n) (lo : ℕ) (b : Bareiss R n) (x : R) (hx : x ≠ 0) :
    forUp n lo (bareissPivotStep kp) (b, x) = (b, x) := by
  by_cases hlo : lo ≤ n
  · have := forUp_inv (n := n) (lo := lo) (body := bareissPivotStep kp) (s := (b, x)) (fun _ s => s = (b, x)) hlo rfl
      (by intro i s _ hs; rw [hs]; simp [bareissPivotStep, hx])
    exact this
  · exact forUp_ge (by omega)

end Mathter
