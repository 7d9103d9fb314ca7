import Verif.Lemmas.RoundedDominant
import Verif.Lemmas.DominantDet
import Verif.Props.Bareiss
import Mathlib.LinearAlgebra.Matrix.Determinant.Misc

/-!
# Property C152: the rounding of determinants of dimension 5 and above

The property is false as stated: rows are only exchanged when a pivot is exactly zero, so that a small pivot destroys the matrix below it. `C152_violated`
gives, in every dimension from 5 and for every precision, a matrix of entries between 0 and 1 with determinant almost 2 whose computed determinant is 0.
`C152_backward_partial` proves that without zero pivots the result is the determinant of a product of triangular factors that is close to the matrix relative
to the product of the absolute values of the factors, `C152_columns_partial` and `C152_rows_partial` that for matrices dominated by their diagonal no pivot is
zero and the result is the determinant of a matrix close to the given one, `C152_accuracy_partial` that it is then accurate, and `C152_exact_partial` that it
is exact for matrices of integers with small minors.
-/

namespace Mathter.Props
open Mathter
variable {n : ℕ}

/-- Growth of the errors by one step: about `1 + 6 * 2 ^ (-p)`. -/
noncomputable def bareissGrowth (p : ℕ) : ℝ := (1 + (2 : ℝ) ^ (-(p : ℤ))) ^ 3 / (2 - (1 + (2 : ℝ) ^ (-(p : ℤ))) ^ 3)

private theorem three_lt {p : ℕ} (hp : 3 ≤ p) : (1 + (2 : ℝ) ^ (-(p : ℤ))) ^ 3 < 2 := by
  have h8 : (2 : ℝ) ^ (-(p : ℤ)) ≤ 1 / 8 := by
    have := zpow_le_zpow_right₀ (by norm_num : (1 : ℝ) ≤ 2) (show -(p : ℤ) ≤ -3 by omega)
    refine this.trans (le_of_eq ?_)
    norm_num
  have hpos : (0 : ℝ) < (2 : ℝ) ^ (-(p : ℤ)) := by positivity
  calc (1 + (2 : ℝ) ^ (-(p : ℤ))) ^ 3 ≤ (1 + 1 / 8) ^ 3 := pow_le_pow_left₀ (by linarith) (by linarith) 3
    _ < 2 := by norm_num

/-- The growth is `1 + 12 * 2 ^ (-p)` at most. -/
theorem C152_growth {p : ℕ} (hp : 5 ≤ p) : 1 ≤ bareissGrowth p ∧ bareissGrowth p ≤ 1 + 12 * (2 : ℝ) ^ (-(p : ℤ)) := by
  have h := three_lt (show 3 ≤ p by omega)
  unfold bareissGrowth
  have h32 : (2 : ℝ) ^ (-(p : ℤ)) ≤ 1 / 32 := by
    have := zpow_le_zpow_right₀ (by norm_num : (1 : ℝ) ≤ 2) (show -(p : ℤ) ≤ -5 by omega)
    refine this.trans (le_of_eq ?_)
    norm_num
  have hpos : (0 : ℝ) < (2 : ℝ) ^ (-(p : ℤ)) := by positivity
  set v := (2 : ℝ) ^ (-(p : ℤ))
  clear_value v
  have h3 : (1 + v) ^ 3 ≤ 1 + 4 * v := by nlinarith [sq_nonneg v, mul_nonneg hpos.le (sq_nonneg v)]
  have h3' : 1 ≤ (1 + v) ^ 3 := one_le_pow₀ (by linarith)
  constructor
  · rw [le_div_iff₀ (by linarith)]; linarith
  · rw [div_le_iff₀ (by linarith)]
    nlinarith

/-- C152, partial: if no pivot is zero, then the computed determinant is exactly that of `L * U` with a unit lower triangular `L`, an upper triangular `U`, and
`L * U` differs from the matrix by at most `(ρ ^ n - 1) * |L| * |U|`, `ρ = bareissGrowth p`. Missing: a bound of the factors by the matrix, which does not
exist (`C152_violated`). -/
theorem C152_backward_partial {p : ℕ} (hp : 3 ≤ p) {fl : ℝ → ℝ} (hfl : RoundsToNearest p fl) {pd : ℝ → ℝ → ℝ → ℝ → ℝ} (hpd : Fl.IsProdDiff fl pd)
    (A : Matrix (Fin (n + 1)) (Fin (n + 1)) ℝ) (X : ℕ → Fin (n + 1) → Fin (n + 1) → ℝ) (hX : Fl.BareissRun fl pd A X)
    (h0 : ∀ k : Fin n, X k.val k.castSucc k.castSucc ≠ 0) :
    ∃ L U : Matrix (Fin (n + 1)) (Fin (n + 1)) ℝ, (∀ i, L i i = 1) ∧ (∀ i j, i < j → L i j = 0) ∧ (∀ i j, j < i → U i j = 0) ∧
      Fl.bareiss fl pd A = (L * U).det ∧
      ∀ i j, |A i j - (L * U) i j| ≤
        (bareissGrowth p ^ n - 1) * ∑ q, |L i q| * |U q j| := by
  have h := hfl.rounding (by omega)
  have hpiv : ∀ k, k ≤ n → Fl.prevPivot X k ≠ 0 := by
    intro k hk
    cases k with
    | zero => exact one_ne_zero
    | succ k =>
      have := h0 ⟨k, hk⟩
      have e : min k n = k := by omega
      simp only [Fl.prevPivot, e]
      exact this
  have hu := three_lt hp
  refine ⟨Fl.runL X, Fl.runU X, ?_, ?_, ?_, ?_, ?_⟩
  · intro i; simp [Fl.runL]
  · intro i j hij
    simp only [Fl.runL, Matrix.of_apply]
    rw [if_neg (not_lt.2 hij.le), if_neg hij.ne']
  · intro i j hij
    simp only [Fl.runU, Matrix.of_apply]
    rw [if_neg (not_le.2 hij)]
  · rw [Fl.run_det hpiv]
    exact Fl.bareiss_run hX fun k hk => hpiv k hk.le
  · intro i j
    have := Fl.run_backward h hpd hX hpiv hu (ρ := bareissGrowth p) rfl i j
    simpa only [abs_mul] using this

private theorem leading_bordered (m : Matrix (Fin (n + 1)) (Fin (n + 1)) ℤ) (k : ℕ) (h : k + 1 ≤ n + 1) :
    bordered m k ⟨k, h⟩ ⟨k, h⟩ = (leading m (k + 1) h).det := by
  unfold bordered leading
  have : (borderIdx k (⟨k, h⟩ : Fin (n + 1))) = Fin.castLE h := by
    funext a
    unfold borderIdx
    split
    · rfl
    · apply Fin.ext
      simp only [Fin.val_castLE]
      have := a.isLt
      omega
  rw [this]

private theorem int_fixed {p : ℕ} {fl : ℝ → ℝ} (hfl : RoundsToNearest p fl) {z : ℤ} (hz : |z| < 2 ^ p) : fl z = z :=
  hfl.fixed ⟨z, 0, by simp, hz⟩

/-- The matrices of a run on integers are bordered minors as long as these fit. -/
private theorem run_int {p : ℕ} {fl : ℝ → ℝ} (hfl : RoundsToNearest p fl) {pd : ℝ → ℝ → ℝ → ℝ → ℝ} (hpd : Fl.IsProdDiff fl pd)
    (m : Matrix (Fin (n + 1)) (Fin (n + 1)) ℤ) (hl : ∀ s (h : s + 1 ≤ n), (leading m s (by omega)).det ≠ 0)
    (B : ℤ) (hB : ∀ (q : ℕ) (r c : Fin (n + 1)), q ≤ r.val → q ≤ c.val → |bordered m q r c| ≤ B) (h2 : B * B < 2 ^ p)
    (X : ℕ → Fin (n + 1) → Fin (n + 1) → ℝ) (hX : Fl.BareissRun fl pd (fun i j => (m i j : ℝ)) X) :
    ∀ k, k ≤ n → ∃ (Y : Fin (n + 1) → Fin (n + 1) → ℤ) (d : ℤ), (∀ i j, X k i j = Y i j) ∧ Fl.prevPivot X k = d ∧
      (k = 0 → d = 1) ∧ (∀ (_ : k ≠ 0) (h : k ≤ n + 1), d = (leading m k h).det) ∧ BareissInv (fun i j => m i j) Y k d := by
  have hB0 : 0 ≤ B := (abs_nonneg _).trans (hB 0 0 0 (Nat.zero_le _) (Nat.zero_le _))
  intro k
  induction k with
  | zero => exact fun _ => ⟨fun i j => m i j, 1, hX.1, by simp [Fl.prevPivot], fun _ => rfl, fun h => absurd rfl h, bareissInv_init _⟩
  | succ k ih =>
    intro hk
    obtain ⟨Y, d, hY, hd, hd1, hdl, hI⟩ := ih (by omega)
    have hd0 : d ≠ 0 := by
      by_cases h : k = 0
      · rw [hd1 h]; exact one_ne_zero
      · rw [hdl h (by omega)]; exact hl k hk
    let κ : Fin n := ⟨k, hk⟩
    have hb : ∀ r c : Fin (n + 1), k ≤ r.val → k ≤ c.val → Y r c = bordered m k r c := fun r c hr hc => bareissInv_bordered hI r c hr hc
    have hκ : Y κ.castSucc κ.castSucc = (leading m (k + 1) (by omega)).det := by
      rw [hb _ _ le_rfl le_rfl]
      exact leading_bordered m k (by omega)
    have hnum : ∀ r c : Fin (n + 1), κ.castSucc < r → κ.castSucc < c →
        Y r c * Y κ.castSucc κ.castSucc - Y r κ.castSucc * Y κ.castSucc c = bordered m (k + 1) r c * d := fun r c hr hc =>
      bareissInv_num (k := κ.castSucc) hI r c hr hc
    have hElim : ∀ r c, bareissElim Int.tdiv κ.castSucc d Y r c = if κ.castSucc < r ∧ κ.castSucc < c then bordered m (k + 1) r c else Y r c := by
      intro r c
      rw [bareissElim_eq]
      split
      · rename_i h
        rw [hnum r c h.1 h.2]
        exact Int.mul_tdiv_cancel _ hd0
      · rfl
    refine ⟨bareissElim Int.tdiv κ.castSucc d Y, Y κ.castSucc κ.castSucc, ?_, ?_, fun h => absurd h (Nat.succ_ne_zero k), fun _ _ => hκ, ?_⟩
    · intro i j
      have := hX.2 κ i j
      simp only [κ] at this
      rw [this, hElim]
      split
      · rename_i h
        have hr : k + 1 ≤ i.val := h.1
        have hc : k + 1 ≤ j.val := h.2
        have hkk : k ≤ (κ.castSucc : Fin (n + 1)).val := le_rfl
        have b1 := hB k i j (by omega) (by omega)
        have b2 := hB k _ _ hkk hkk
        have b3 := hB k i _ (by omega) hkk
        have b4 := hB k _ j hkk (by omega)
        have b5 := hB (k + 1) i j hr hc
        rw [← hb i j (by omega) (by omega)] at b1
        rw [← hb _ _ hkk hkk] at b2
        rw [← hb i _ (by omega) hkk] at b3
        rw [← hb _ j hkk (by omega)] at b4
        have mulB : ∀ {x y : ℤ}, |x| ≤ B → |y| ≤ B → |x * y| < 2 ^ p := fun hx hy => by
          rw [abs_mul]
          exact (mul_le_mul hx hy (abs_nonneg _) hB0).trans_lt h2
        have hBp : B < 2 ^ p := by
          rcases eq_or_lt_of_le hB0 with h0 | h0
          · rw [← h0]; positivity
          · nlinarith
        have hdB : |bordered m (k + 1) i j * d| < 2 ^ p := by
          by_cases h : k = 0
          · rw [hd1 h, mul_one]; exact b5.trans_lt hBp
          · refine mulB b5 ?_
            rw [hdl h (by omega)]
            obtain ⟨q, rfl⟩ := Nat.exists_eq_succ_of_ne_zero h
            have := leading_bordered m q (by omega)
            rw [← this]
            exact hB q _ _ le_rfl le_rfl
        have hn := hnum i j h.1 h.2
        have f1 := int_fixed hfl (mulB b1 b2)
        have f2 := int_fixed hfl (mulB b3 b4)
        have f3 := int_fixed hfl hdB
        rw [← hn] at f3
        push_cast at f1 f2 f3
        have hpdv : pd (X k i j) (X k κ.castSucc κ.castSucc) (X k i κ.castSucc) (X k κ.castSucc j) = ((bordered m (k + 1) i j * d : ℤ) : ℝ) := by
          rw [hY, hY, hY, hY, ← hn]
          push_cast
          rcases hpd (Y i j) (Y κ.castSucc κ.castSucc) (Y i κ.castSucc) (Y κ.castSucc j) with e | e | e <;> rw [e]
          · rw [f1, f2, f3]
          · rw [f2, f3]
          · rw [f1, f3]
        change fl (pd (X k i j) (X k κ.castSucc κ.castSucc) (X k i κ.castSucc) (X k κ.castSucc j) / Fl.prevPivot X k) = _
        rw [hpdv, hd]
        push_cast
        rw [mul_div_cancel_right₀ _ (by exact_mod_cast hd0)]
        exact int_fixed hfl (b5.trans_lt hBp)
      · exact hY i j
    · have e : min k n = k := by omega
      simp only [Fl.prevPivot, e]
      exact hY _ _
    · refine bareissInv_step (k := κ.castSucc) Int.tdiv (fun a b hb => Int.mul_tdiv_cancel a hb) hI hd0 ?_
      by_cases h : n + 1 ≤ k + 2
      · exact Or.inr h
      · left
        rw [hκ]
        exact hl _ (by omega)

/-- Every matrix has a run. -/
private theorem exists_run (fl : ℝ → ℝ) (pd : ℝ → ℝ → ℝ → ℝ → ℝ) (A : Fin (n + 1) → Fin (n + 1) → ℝ) : ∃ X, Fl.BareissRun fl pd A X := by
  let step : ℕ → (Fin (n + 1) → Fin (n + 1) → ℝ) × ℝ → (Fin (n + 1) → Fin (n + 1) → ℝ) × ℝ := fun k s =>
    let κ : Fin (n + 1) := ⟨min k n, by omega⟩
    (fun i j => if κ < i ∧ κ < j then fl (pd (s.1 i j) (s.1 κ κ) (s.1 i κ) (s.1 κ j) / s.2) else s.1 i j, s.1 κ κ)
  let S : ℕ → (Fin (n + 1) → Fin (n + 1) → ℝ) × ℝ := fun k => Nat.rec (A, 1) step k
  let X : ℕ → Fin (n + 1) → Fin (n + 1) → ℝ := fun k => (S k).1
  have hS : ∀ k, (S k).2 = Fl.prevPivot X k := by
    intro k
    cases k <;> rfl
  refine ⟨X, fun i j => rfl, fun k i j => ?_⟩
  have e : (⟨min k.val n, by omega⟩ : Fin (n + 1)) = k.castSucc := Fin.ext (by simp only [Fin.val_castSucc]; omega)
  change (step k.val (S k.val)).1 i j = _
  simp only [step, e, hS]
  rfl

/-- C152, partial: if every column is dominated by its diagonal element, the other elements having a sum of absolute values of at most `θ` times the diagonal
element with `θ * ρ ^ n < 1`, then the computed determinant is the exact one of a matrix `B`, and every column of `B` is close to the one of the matrix.
Missing: matrices that are not dominated by their diagonal (see `C152_violated`). -/
theorem C152_columns_partial {p : ℕ} (hp : 3 ≤ p) {fl : ℝ → ℝ} (hfl : RoundsToNearest p fl) {pd : ℝ → ℝ → ℝ → ℝ → ℝ} (hpd : Fl.IsProdDiff fl pd)
    (A : Matrix (Fin (n + 1)) (Fin (n + 1)) ℝ) {θ : ℝ} (hθ0 : 0 ≤ θ) (hθ : θ * bareissGrowth p ^ n < 1) (h0 : ∀ j, A j j ≠ 0)
    (hd : ∀ j, (∑ i, if i = j then 0 else |A i j|) ≤ θ * |A j j|) :
    ∃ B : Matrix (Fin (n + 1)) (Fin (n + 1)) ℝ, Fl.bareiss fl pd A = B.det ∧ ∀ j, ∑ i, |A i j - B i j| ≤
      (bareissGrowth p ^ n - 1) * (2 * bareissGrowth p ^ n / (1 - θ * bareissGrowth p ^ n)) * ∑ i, |A i j| := by
  have h := hfl.rounding (by omega)
  have hu := three_lt hp
  obtain ⟨X, hX⟩ := exists_run fl pd fun i j => A i j
  have hX' : Fl.BareissRun fl pd A X := hX
  obtain ⟨hpiv, hLU⟩ := Fl.dom_run h hpd hX' hu (ρ := bareissGrowth p) rfl hθ0 hθ fun j => ⟨h0 j, hd j⟩
  refine ⟨Fl.runL X * Fl.runU X, ?_, fun j => ?_⟩
  · rw [Fl.run_det hpiv]
    exact Fl.bareiss_run hX' fun k hk => hpiv k hk.le
  · have hR : 1 ≤ (1 + (2 : ℝ) ^ (-(p : ℤ))) ^ 3 := h.one_le 3
    have hρ1 : 1 ≤ bareissGrowth p := by rw [bareissGrowth, le_div_iff₀ (by linarith)]; linarith
    have := Finset.sum_le_sum fun i (_ : i ∈ Finset.univ) => Fl.run_backward h hpd hX' hpiv hu (ρ := bareissGrowth p) rfl i j
    rw [← Finset.mul_sum] at this
    refine this.trans ?_
    rw [mul_assoc]
    exact mul_le_mul_of_nonneg_left (hLU j) (by linarith [one_le_pow₀ hρ1 (n := n)])

/-- C152, partial: the same for matrices whose rows are dominated by the diagonal. -/
theorem C152_rows_partial {p : ℕ} (hp : 3 ≤ p) {fl : ℝ → ℝ} (hfl : RoundsToNearest p fl) {pd : ℝ → ℝ → ℝ → ℝ → ℝ} (hpd : Fl.IsProdDiff fl pd)
    (A : Matrix (Fin (n + 1)) (Fin (n + 1)) ℝ) {θ : ℝ} (hθ0 : 0 ≤ θ) (hθ : θ * bareissGrowth p ^ n < 1) (h0 : ∀ i, A i i ≠ 0)
    (hd : ∀ i, (∑ j, if j = i then 0 else |A i j|) ≤ θ * |A i i|) :
    ∃ B : Matrix (Fin (n + 1)) (Fin (n + 1)) ℝ, Fl.bareiss fl pd A = B.det ∧ ∀ i, ∑ j, |A i j - B i j| ≤
      (bareissGrowth p ^ n - 1) * (2 * bareissGrowth p ^ n / (1 - θ * bareissGrowth p ^ n)) * ∑ j, |A i j| := by
  have h := hfl.rounding (by omega)
  have hu := three_lt hp
  -- the run on the transpose
  obtain ⟨X, hX⟩ := exists_run fl pd fun i j => A i j
  have hX' : Fl.BareissRun fl pd A X := hX
  let Y : ℕ → Fin (n + 1) → Fin (n + 1) → ℝ := fun k i j => X k j i
  have hY : ∀ k, Fl.prevPivot Y k = Fl.prevPivot X k := by intro k; cases k <;> rfl
  have hpd' : Fl.IsProdDiff fl fun a b c d => pd a b d c := by
    intro a b c d
    rcases hpd a b d c with e | e | e
    · exact Or.inl (by rw [mul_comm c d]; exact e)
    · exact Or.inr (Or.inl (by rw [mul_comm c d]; exact e))
    · exact Or.inr (Or.inr (by rw [mul_comm c d]; exact e))
  have hYr : Fl.BareissRun fl (fun a b c d => pd a b d c) A.transpose Y := by
    refine ⟨fun i j => hX.1 j i, fun k i j => ?_⟩
    rw [hY]
    change X (k.val + 1) j i = _
    rw [hX.2 k j i]
    by_cases hc : k.castSucc < i ∧ k.castSucc < j
    · rw [if_pos hc, if_pos ⟨hc.2, hc.1⟩]
    · rw [if_neg hc, if_neg fun h => hc ⟨h.2, h.1⟩]
  obtain ⟨hpiv, -⟩ := Fl.dom_run h hpd' hYr hu (ρ := bareissGrowth p) rfl hθ0 hθ fun j => ⟨h0 j, hd j⟩
  obtain ⟨B, hB, hE⟩ := C152_columns_partial hp hfl hpd' A.transpose hθ0 hθ h0 hd
  refine ⟨B.transpose, ?_, fun i => hE i⟩
  rw [Matrix.det_transpose, ← hB, Fl.bareiss_run hX' fun k hk => by rw [← hY]; exact hpiv k hk.le,
    Fl.bareiss_run hYr fun k hk => hpiv k hk.le]

private theorem accuracy_of_backward {p : ℕ} (hp : 3 ≤ p) (A B : Matrix (Fin (n + 1)) (Fin (n + 1)) ℝ) {θ θ' : ℝ} (hθ0 : 0 ≤ θ)
    (hθ : θ * bareissGrowth p ^ n < 1) (h0 : ∀ j, A j j ≠ 0) (hd : ∀ j, (∑ i, if i = j then 0 else |A i j|) ≤ θ * |A j j|) (hθ'0 : 0 ≤ θ') (hθ' : θ' < 1)
    (hθθ : θ + (bareissGrowth p ^ n - 1) * (2 * bareissGrowth p ^ n / (1 - θ * bareissGrowth p ^ n)) * (1 + θ) ≤
      θ' * (1 - (bareissGrowth p ^ n - 1) * (2 * bareissGrowth p ^ n / (1 - θ * bareissGrowth p ^ n)) * (1 + θ)))
    (hE : ∀ j, ∑ i, |A i j - B i j| ≤ (bareissGrowth p ^ n - 1) * (2 * bareissGrowth p ^ n / (1 - θ * bareissGrowth p ^ n)) * ∑ i, |A i j|) :
    |B.det - A.det| ≤
      ((1 + (bareissGrowth p ^ n - 1) * (2 * bareissGrowth p ^ n / (1 - θ * bareissGrowth p ^ n)) * (1 + θ) / (1 - θ')) ^ (n + 1) - 1) * |A.det| := by
  have hu := three_lt hp
  have hv : (0 : ℝ) < (2 : ℝ) ^ (-(p : ℤ)) := by positivity
  have hR : 1 ≤ (1 + (2 : ℝ) ^ (-(p : ℤ))) ^ 3 := one_le_pow₀ (by linarith)
  have hρ1 : 1 ≤ bareissGrowth p := by rw [bareissGrowth, le_div_iff₀ (by linarith)]; linarith
  have hρn := one_le_pow₀ hρ1 (n := n)
  have hc : 0 ≤ (bareissGrowth p ^ n - 1) * (2 * bareissGrowth p ^ n / (1 - θ * bareissGrowth p ^ n)) :=
    mul_nonneg (by linarith) (div_nonneg (by linarith) (by linarith))
  refine det_dom_perturb (mul_nonneg hc (by linarith)) h0 hd (fun j => (hE j).trans ?_) hθ'0 hθ' hθθ
  rw [mul_assoc (_ * _)]
  refine mul_le_mul_of_nonneg_left ?_ hc
  have : ∀ i, |A i j| = (if i = j then |A i j| else 0) + if i = j then 0 else |A i j| := by intro i; split <;> simp
  rw [Finset.sum_congr rfl fun i _ => this i, Finset.sum_add_distrib, Finset.sum_ite_eq' Finset.univ j fun i => |A i j|, if_pos (Finset.mem_univ _)]
  linarith [hd j]

/-- C152, partial: the computed determinant of a matrix dominated by its diagonal, by columns or by rows, is accurate relative to the determinant. With
`η` the error of the columns (or rows) relative to the diagonal and `θ'` a bound of the dominance of all matrices that close, the error is
`(1 + η / (1 - θ')) ^ Dim - 1`. Missing: matrices that are not dominated by their diagonal (see `C152_violated`). -/
theorem C152_accuracy_partial {p : ℕ} (hp : 3 ≤ p) {fl : ℝ → ℝ} (hfl : RoundsToNearest p fl) {pd : ℝ → ℝ → ℝ → ℝ → ℝ} (hpd : Fl.IsProdDiff fl pd)
    (A : Matrix (Fin (n + 1)) (Fin (n + 1)) ℝ) {θ θ' : ℝ} (hθ0 : 0 ≤ θ) (hθ : θ * bareissGrowth p ^ n < 1) (h0 : ∀ j, A j j ≠ 0)
    (hd : (∀ j, (∑ i, if i = j then 0 else |A i j|) ≤ θ * |A j j|) ∨ ∀ i, (∑ j, if j = i then 0 else |A i j|) ≤ θ * |A i i|) (hθ'0 : 0 ≤ θ') (hθ' : θ' < 1)
    (hθθ : θ + (bareissGrowth p ^ n - 1) * (2 * bareissGrowth p ^ n / (1 - θ * bareissGrowth p ^ n)) * (1 + θ) ≤
      θ' * (1 - (bareissGrowth p ^ n - 1) * (2 * bareissGrowth p ^ n / (1 - θ * bareissGrowth p ^ n)) * (1 + θ))) :
    |Fl.bareiss fl pd A - A.det| ≤
      ((1 + (bareissGrowth p ^ n - 1) * (2 * bareissGrowth p ^ n / (1 - θ * bareissGrowth p ^ n)) * (1 + θ) / (1 - θ')) ^ (n + 1) - 1) * |A.det| := by
  rcases hd with hd | hd
  · obtain ⟨B, hB, hE⟩ := C152_columns_partial hp hfl hpd A hθ0 hθ h0 hd
    rw [hB]
    exact accuracy_of_backward hp A B hθ0 hθ h0 hd hθ'0 hθ' hθθ hE
  · obtain ⟨B, hB, hE⟩ := C152_rows_partial hp hfl hpd A hθ0 hθ h0 hd
    have := accuracy_of_backward hp A.transpose B.transpose hθ0 hθ h0 hd hθ'0 hθ' hθθ hE
    rw [Matrix.det_transpose, Matrix.det_transpose] at this
    rw [hB]
    exact this

/-- C152, partial: for a matrix of integers whose leading principal minors of order `1 … Dim - 2` are nonzero, and whose bordered minors are at most `B` with
`B * B < 2 ^ p`, the computed determinant is exact. Missing: matrices with zero leading minors (see C29). -/
theorem C152_exact_partial {p : ℕ} {fl : ℝ → ℝ} (hfl : RoundsToNearest p fl) {pd : ℝ → ℝ → ℝ → ℝ → ℝ} (hpd : Fl.IsProdDiff fl pd)
    (m : Matrix (Fin (n + 1)) (Fin (n + 1)) ℤ) (hl : ∀ s (h : s + 1 ≤ n), (leading m s (by omega)).det ≠ 0)
    (B : ℤ) (hB : ∀ (q : ℕ) (r c : Fin (n + 1)), q ≤ r.val → q ≤ c.val → |bordered m q r c| ≤ B) (h2 : B * B < 2 ^ p) :
    Fl.bareiss fl pd (Matrix.of fun i j => (m i j : ℝ)) = m.det := by
  obtain ⟨X, hX⟩ := exists_run fl pd fun i j => (m i j : ℝ)
  have key := run_int hfl hpd m hl B hB h2 X hX
  have hrun := Fl.bareiss_run (A := Matrix.of fun i j => (m i j : ℝ)) hX (by
    intro k hk
    obtain ⟨Y, d, _, hd, hd1, hdl, _⟩ := key k hk.le
    rw [hd]
    norm_cast
    by_cases h : k = 0
    · rw [hd1 h]; exact one_ne_zero
    · rw [hdl h (by omega)]; exact hl k hk)
  rw [hrun]
  obtain ⟨Y, d, hY, -, -, -, hI⟩ := key n le_rfl
  rw [hY]
  congr 1
  have e := bareissInv_bordered hI (Fin.last n) (Fin.last n) le_rfl le_rfl
  rw [e]
  have := leading_bordered m n le_rfl
  change bordered m n ⟨n, _⟩ ⟨n, _⟩ = _
  rw [this]
  congr 1

/-- The matrix of `C152_violated`: the block with rows `ε 1 1`, `1 0 1`, `1 1 0` and ones on the rest of the diagonal. -/
def smallPivot (ε : ℝ) : Matrix (Fin (n + 1)) (Fin (n + 1)) ℝ :=
  Matrix.of fun i j => if i.val = 0 ∧ j.val = 0 then ε else if i.val < 3 ∧ j.val < 3 then (if i = j then 0 else 1) else if i = j then 1 else 0

theorem smallPivot_det (hn : 4 ≤ n) (ε : ℝ) : (smallPivot (n := n) ε).det = 2 - ε := by
  have hz : ∀ i, ¬ i.val < 3 → ∀ j : Fin (n + 1), j.val < 3 → smallPivot ε i j = 0 := by
    intro i hi j hj
    unfold smallPivot
    simp only [Matrix.of_apply]
    rw [if_neg (by omega), if_neg (by omega), if_neg (by intro e; rw [e] at hi; exact hi hj)]
  rw [Matrix.twoBlockTriangular_det (smallPivot ε) (fun i : Fin (n + 1) => i.val < 3) hz]
  have e2 : Matrix.toSquareBlockProp (smallPivot (n := n) ε) (fun i => ¬ i.val < 3) = 1 := by
    ext i j
    have hi := i.2
    have hj := j.2
    change smallPivot ε i.1 j.1 = _
    simp only [smallPivot, Matrix.of_apply, Matrix.one_apply, Subtype.ext_iff]
    rw [if_neg (by omega), if_neg (by omega)]
  rw [e2, Matrix.det_one, mul_one]
  let e : Fin 3 ≃ {i : Fin (n + 1) // i.val < 3} :=
    ⟨fun i => ⟨⟨i.val, by omega⟩, i.isLt⟩, fun i => ⟨i.1.val, i.2⟩, fun _ => rfl, fun _ => rfl⟩
  rw [← Matrix.det_submatrix_equiv_self e, Matrix.det_fin_three]
  have v : ∀ i j : Fin 3, (Matrix.toSquareBlockProp (smallPivot (n := n) ε) fun i => i.val < 3).submatrix e e i j =
      if i = 0 ∧ j = 0 then ε else if i = j then 0 else 1 := by
    intro i j
    change smallPivot ε (e i).1 (e j).1 = _
    have hi : (e i).1.val = i.val := rfl
    have hj : (e j).1.val = j.val := rfl
    have h1 : (i = 0 ↔ i.val = 0) := Fin.ext_iff
    have h2 : (j = 0 ↔ j.val = 0) := Fin.ext_iff
    have h3 : (i = j ↔ i.val = j.val) := Fin.ext_iff
    have h4 : ((e i).1 = (e j).1 ↔ i.val = j.val) := Fin.ext_iff
    have := i.isLt
    have := j.isLt
    simp only [smallPivot, Matrix.of_apply, hi, hj, h1, h2, h3, h4]
    by_cases h : i.val = 0 ∧ j.val = 0
    · rw [if_pos h, if_pos h]
    · rw [if_neg h, if_neg h, if_pos (by omega)]
  simp only [v]
  have h1 : (2 : Fin 3) ≠ 1 := by decide
  have h2 : (1 : Fin 3) ≠ 2 := by decide
  have h3 : (2 : Fin 3) ≠ 0 := by decide
  have h4 : (0 : Fin 3) ≠ 2 := by decide
  simp [h1, h2, h3, h4]
  ring

/-- Subtracting 1 from a quarter of a rounding error yields -1. -/
theorem round_sub_one {p : ℕ} (hp : 2 ≤ p) {fl : ℝ → ℝ} (hfl : RoundsToNearest p fl) : fl ((2 : ℝ) ^ (-(p : ℤ) - 2) - 1) = -1 := by
  set ε : ℝ := (2 : ℝ) ^ (-(p : ℤ) - 2) with hε
  have hε0 : 0 < ε := by positivity
  have h2p : (1 : ℤ) < 2 ^ p := one_lt_pow₀ (by norm_num) (by omega)
  have hn := hfl.nearest (ε - 1) (-1) ⟨-1, 0, by simp, by simpa using h2p⟩
  have hεp : ε * 4 = (2 : ℝ) ^ (-(p : ℤ)) := by
    rw [hε, zpow_sub₀ (by norm_num)]
    norm_num
  have hp4 : (2 : ℝ) ^ (-(p : ℤ)) ≤ 1 / 4 := by
    have := zpow_le_zpow_right₀ (by norm_num : (1 : ℝ) ≤ 2) (show -(p : ℤ) ≤ -2 by omega)
    refine this.trans (le_of_eq ?_)
    norm_num
  rw [show (-1 : ℝ) - (ε - 1) = -ε by ring, abs_neg, abs_of_pos hε0] at hn
  obtain ⟨hn1, hn2⟩ := abs_le.1 hn
  have hg := grid_of_isFloat (e := -(p : ℤ)) (hfl.mem (ε - 1)) (by
    rw [abs_of_neg (by linarith), show (p : ℤ) - 1 + -(p : ℤ) = -1 by ring]
    norm_num
    linarith)
  obtain ⟨z, hz⟩ := hg
  have hpp : (2 : ℝ) ^ p * (2 : ℝ) ^ (-(p : ℤ)) = 1 := by
    rw [← zpow_natCast, ← zpow_add₀ (by norm_num)]
    simp
  have hpos : (0 : ℝ) < (2 : ℝ) ^ (-(p : ℤ)) := by positivity
  have b1 : -(2 : ℝ) ^ p ≤ z := by
    refine le_of_mul_le_mul_right ?_ hpos
    rw [neg_mul, hpp, ← hz]
    linarith
  have b2 : (z : ℝ) < -(2 : ℝ) ^ p + 1 := by
    refine lt_of_mul_lt_mul_right ?_ hpos.le
    rw [add_mul, neg_mul, hpp, ← hz]
    linarith
  have b1' : -2 ^ p ≤ z := by exact_mod_cast b1
  have b2' : z < -2 ^ p + 1 := by exact_mod_cast b2
  have : z = -2 ^ p := by omega
  rw [hz, this]
  push_cast
  rw [neg_mul, hpp]

/-- C152, as stated, is violated: for every rounding to nearest, fused or not, and every dimension from 5, a matrix of numbers of the format between 0 and 1 has
a determinant of almost 2 and the computed determinant is 0. -/
theorem C152_violated {p : ℕ} (hp : 2 ≤ p) {fl : ℝ → ℝ} (hfl : RoundsToNearest p fl) {pd : ℝ → ℝ → ℝ → ℝ → ℝ} (hpd : Fl.IsProdDiff fl pd) (hn : 4 ≤ n) :
    ∃ A : Matrix (Fin (n + 1)) (Fin (n + 1)) ℝ, (∀ i j, IsFloat p (A i j) ∧ 0 ≤ A i j ∧ A i j ≤ 1) ∧ A.det = 2 - (2 : ℝ) ^ (-(p : ℤ) - 2) ∧
      Fl.bareiss fl pd A = 0 := by
  set ε : ℝ := (2 : ℝ) ^ (-(p : ℤ) - 2) with hε
  have hε0 : 0 < ε := by positivity
  have hε1 : ε ≤ 1 := zpow_le_one_of_nonpos₀ (by norm_num) (by omega)
  have h2p : (1 : ℤ) < 2 ^ p := one_lt_pow₀ (by norm_num) (by omega)
  have fε : IsFloat p ε := ⟨1, -(p : ℤ) - 2, by simp [hε], by simpa using h2p⟩
  have f1 : IsFloat p 1 := ⟨1, 0, by simp, by simpa using h2p⟩
  have f0 : IsFloat p 0 := ⟨0, 0, by simp, by simp⟩
  have r1 := hfl.fixed f1
  have r0 := hfl.fixed f0
  have rε := hfl.fixed fε
  have rm : fl (-1) = -1 := by rw [hfl.odd, r1]
  have rmε : fl (-ε) = -ε := by rw [hfl.odd, rε]
  have rs : fl (ε - 1) = -1 := round_sub_one hp hfl
  have pdf : ∀ {a b c d : ℝ}, fl (a * b) = a * b → fl (c * d) = c * d → pd a b c d = fl (a * b - c * d) := by
    intro a b c d h1 h2
    rcases hpd a b c d with e | e | e <;> rw [e]
    · rw [h1, h2]
    · rw [h2]
    · rw [h1]
  have p1 : pd 0 ε 1 1 = -1 := by rw [pdf (by simpa using r0) (by simpa using r1)]; simpa using rm
  have p2 : pd 1 ε 1 1 = -1 := by rw [pdf (by simpa using rε) (by simpa using r1)]; simpa using rs
  have pz : ∀ x y, fl (x * y) = x * y → ∀ z, pd x y 0 z = x * y := fun x y h z => by
    rw [pdf h (by simpa using r0)]; simpa using h
  have pz' : ∀ x y, fl (x * y) = x * y → ∀ z, pd x y z 0 = x * y := fun x y h z => by
    rw [pdf h (by simpa using r0)]; simpa using h
  let A : Fin (n + 1) → Fin (n + 1) → ℝ := fun i j => smallPivot ε i j
  let X1 : Fin (n + 1) → Fin (n + 1) → ℝ := fun i j => if i.val = 0 ∨ j.val = 0 then A i j else if i.val < 3 ∧ j.val < 3 then -1 else if i = j then ε else 0
  let X2 : Fin (n + 1) → Fin (n + 1) → ℝ := fun i j => if i.val ≤ 1 ∨ j.val ≤ 1 then X1 i j else if i = j ∧ i.val ≠ 2 then -1 else 0
  let X3 : Fin (n + 1) → Fin (n + 1) → ℝ := fun i j => if i.val ≤ 2 ∨ j.val ≤ 2 then X2 i j else 0
  have A00 : ∀ i j : Fin (n + 1), i.val = 0 → j.val = 0 → A i j = ε := by
    intro i j hi hj
    simp only [A, smallPivot, Matrix.of_apply]
    rw [if_pos ⟨hi, hj⟩]
  have A1 : ∀ i j : Fin (n + 1), i.val < 3 → j.val < 3 → i.val ≠ j.val → A i j = 1 := by
    intro i j hi hj h
    simp only [A, smallPivot, Matrix.of_apply]
    rw [if_neg (by omega), if_pos ⟨hi, hj⟩, if_neg (fun e => h (congrArg Fin.val e))]
  have A0 : ∀ i j : Fin (n + 1), i.val < 3 → j.val < 3 → i.val = j.val → i.val ≠ 0 → A i j = 0 := by
    intro i j hi hj h h0
    simp only [A, smallPivot, Matrix.of_apply]
    rw [if_neg (by omega), if_pos ⟨hi, hj⟩, if_pos (Fin.ext h)]
  have Ad : ∀ i j : Fin (n + 1), 3 ≤ i.val → i.val = j.val → A i j = 1 := by
    intro i j hi h
    simp only [A, smallPivot, Matrix.of_apply]
    rw [if_neg (by omega), if_neg (by omega), if_pos (Fin.ext h)]
  have Ao : ∀ i j : Fin (n + 1), (3 ≤ i.val ∨ 3 ≤ j.val) → i.val ≠ j.val → A i j = 0 := by
    intro i j hi h
    simp only [A, smallPivot, Matrix.of_apply]
    rw [if_neg (by omega), if_neg (by omega), if_neg (fun e => h (congrArg Fin.val e))]
  let k0 : Fin (n + 1) := ⟨0, by omega⟩
  let k1 : Fin (n + 1) := ⟨1, by omega⟩
  let k2 : Fin (n + 1) := ⟨2, by omega⟩
  let k3 : Fin (n + 1) := ⟨3, by omega⟩
  have e1 : Fl.bareissElim fl pd k0 1 A = X1 := by
    funext i j
    rw [Fl.bareissElim_apply]
    by_cases h : i.val = 0 ∨ j.val = 0
    · simp only [X1]
      rw [if_pos h, if_neg (by simp only [Fin.lt_def, k0]; omega)]
    · rw [if_pos (by simp only [Fin.lt_def, k0]; omega), div_one]
      simp only [X1]
      rw [if_neg h, A00 k0 k0 rfl rfl]
      by_cases h3 : i.val < 3 ∧ j.val < 3
      · rw [if_pos h3, A1 i k0 h3.1 (by simp [k0]) (by simp only [k0]; omega), A1 k0 j (by simp [k0]) h3.2 (by simp only [k0]; omega)]
        by_cases hij : i.val = j.val
        · rw [A0 i j h3.1 h3.2 hij (by omega), p1, rm]
        · rw [A1 i j h3.1 h3.2 hij, p2, rm]
      · rw [if_neg h3]
        by_cases hij : i.val = j.val
        · rw [if_pos (Fin.ext hij), Ad i j (by omega) hij, Ao i k0 (by omega) (by simp only [k0]; omega), pz _ _ (by simpa using rε), one_mul, rε]
        · rw [if_neg (fun e => hij (congrArg Fin.val e)), Ao i j (by omega) hij]
          rcases Nat.lt_or_ge i.val 3 with hi | hi
          · rw [Ao k0 j (by omega) (by simp only [k0]; omega), pz' _ _ (by simpa using r0), zero_mul, r0]
          · rw [Ao i k0 (by omega) (by simp only [k0]; omega), pz _ _ (by simpa using r0), zero_mul, r0]
  have B1 : ∀ i j : Fin (n + 1), i.val ≠ 0 → j.val ≠ 0 → i.val < 3 → j.val < 3 → X1 i j = -1 := by
    intro i j h1 h2 h3 h4
    simp only [X1]
    rw [if_neg (by omega), if_pos ⟨h3, h4⟩]
  have Bd : ∀ i j : Fin (n + 1), 3 ≤ i.val → i.val = j.val → X1 i j = ε := by
    intro i j h1 h2
    simp only [X1]
    rw [if_neg (by omega), if_neg (by omega), if_pos (Fin.ext h2)]
  have Bo : ∀ i j : Fin (n + 1), i.val ≠ 0 → j.val ≠ 0 → (3 ≤ i.val ∨ 3 ≤ j.val) → i.val ≠ j.val → X1 i j = 0 := by
    intro i j h1 h2 h3 h4
    simp only [X1]
    rw [if_neg (by omega), if_neg (by omega), if_neg (fun e => h4 (congrArg Fin.val e))]
  have e2 : Fl.bareissElim fl pd k1 ε X1 = X2 := by
    funext i j
    rw [Fl.bareissElim_apply]
    by_cases h : i.val ≤ 1 ∨ j.val ≤ 1
    · simp only [X2]
      rw [if_pos h, if_neg (by simp only [Fin.lt_def, k1]; omega)]
    · rw [if_pos (by simp only [Fin.lt_def, k1]; omega)]
      simp only [X2]
      rw [if_neg h, B1 k1 k1 (by simp [k1]) (by simp [k1]) (by simp [k1]) (by simp [k1])]
      by_cases hij : i.val = j.val
      · by_cases hi2 : i.val = 2
        · rw [if_neg (by tauto), B1 i j (by omega) (by omega) (by omega) (by omega), B1 i k1 (by omega) (by simp [k1]) (by omega) (by simp [k1]),
            B1 k1 j (by simp [k1]) (by omega) (by simp [k1]) (by omega), pdf (by simpa using r1) (by simpa using r1)]
          simp [r0]
        · rw [if_pos ⟨Fin.ext hij, hi2⟩, Bd i j (by omega) hij, Bo i k1 (by omega) (by simp [k1]) (by omega) (by simp only [k1]; omega),
            pz _ _ (by simpa using rmε), mul_neg_one, neg_div, div_self hε0.ne', rm]
      · rw [if_neg (fun e => hij (congrArg Fin.val e.1)), Bo i j (by omega) (by omega) (by omega) hij]
        rcases Nat.lt_or_ge i.val 3 with hi | hi
        · rw [Bo k1 j (by simp [k1]) (by omega) (by omega) (by simp only [k1]; omega), pz' _ _ (by simpa using r0), zero_mul, zero_div, r0]
        · rw [Bo i k1 (by omega) (by simp [k1]) (by omega) (by simp only [k1]; omega), pz _ _ (by simpa using r0), zero_mul, zero_div, r0]
  have C0 : ∀ i : Fin (n + 1), 2 ≤ i.val → X2 i k2 = 0 := by
    intro i hi
    simp only [X2]
    rw [if_neg (by simp only [k2]; omega), if_neg (by rintro ⟨e, h⟩; exact h (congrArg Fin.val e))]
  have e3 : Fl.bareissElim fl pd k2 (-1) X2 = X3 := by
    funext i j
    rw [Fl.bareissElim_apply]
    by_cases h : i.val ≤ 2 ∨ j.val ≤ 2
    · simp only [X3]
      rw [if_pos h, if_neg (by simp only [Fin.lt_def, k2]; omega)]
    · rw [if_pos (by simp only [Fin.lt_def, k2]; omega)]
      simp only [X3]
      rw [if_neg h, C0 k2 le_rfl, C0 i (by omega), pz _ _ (by simpa using r0), mul_zero, zero_div, r0]
  have D0 : ∀ i : Fin (n + 1), 2 ≤ i.val → X3 i k2 = 0 := by
    intro i hi
    simp only [X3]
    rw [if_pos (by simp [k2]), C0 i hi]
  have s0 : Fl.bareissStep fl pd k0 (some ⟨A, false⟩) = some ⟨X1, false⟩ := by
    simp only [Fl.bareissStep, Option.bind_some, k0, dif_pos]
    rw [← e1]
  have s1 : Fl.bareissStep fl pd k1 (some ⟨X1, false⟩) = some ⟨X2, false⟩ := by
    have hm : X1 k0 k0 = ε := by
      simp only [X1]
      rw [if_pos (Or.inl rfl), A00 k0 k0 rfl rfl]
    simp only [Fl.bareissStep, Option.bind_some, k1, one_ne_zero, dif_neg, not_false_eq_true]
    change (let q := forUp (n + 1) 1 (bareissPivotStep k0) ((⟨X1, false⟩ : Bareiss ℝ (n + 1)), X1 k0 k0)
      if q.2 = 0 then none else some (⟨Fl.bareissElim fl pd k1 q.2 q.1.inPlace, q.1.flipSign⟩ : Bareiss ℝ (n + 1))) = _
    rw [hm, bareissPivot_nonzero _ _ _ _ hε0.ne']
    simp only [hε0.ne', if_false]
    rw [e2]
  have s2 : Fl.bareissStep fl pd k2 (some ⟨X2, false⟩) = some ⟨X3, false⟩ := by
    have hm : X2 k1 k1 = -1 := by
      simp only [X2]
      rw [if_pos (Or.inl le_rfl), B1 k1 k1 (by simp [k1]) (by simp [k1]) (by simp [k1]) (by simp [k1])]
    have h10 : (-1 : ℝ) ≠ 0 := by norm_num
    simp only [Fl.bareissStep, Option.bind_some, k2, OfNat.ofNat_ne_zero, dif_neg, not_false_eq_true]
    change (let q := forUp (n + 1) 2 (bareissPivotStep k1) ((⟨X2, false⟩ : Bareiss ℝ (n + 1)), X2 k1 k1)
      if q.2 = 0 then none else some (⟨Fl.bareissElim fl pd k2 q.2 q.1.inPlace, q.1.flipSign⟩ : Bareiss ℝ (n + 1))) = _
    rw [hm, bareissPivot_nonzero _ _ _ _ h10]
    simp only [h10, if_false]
    rw [e3]
  have s3 : Fl.bareissStep fl pd k3 (some ⟨X3, false⟩) = none := by
    simp only [Fl.bareissStep, Option.bind_some, k3, OfNat.ofNat_ne_zero, dif_neg, not_false_eq_true]
    change (let q := forUp (n + 1) 3 (bareissPivotStep k2) ((⟨X3, false⟩ : Bareiss ℝ (n + 1)), X3 k2 k2)
      if q.2 = 0 then none else some (⟨Fl.bareissElim fl pd k3 q.2 q.1.inPlace, q.1.flipSign⟩ : Bareiss ℝ (n + 1))) = _
    have := forUp_inv (n := n + 1) (lo := 3) (body := bareissPivotStep k2) (s := ((⟨X3, false⟩ : Bareiss ℝ (n + 1)), X3 k2 k2))
      (fun _ s => s = (⟨X3, false⟩, 0)) (by omega) (by rw [D0 k2 le_rfl]) (by
        rintro i s hi rfl
        simp [bareissPivotStep, D0 i (by omega)])
    rw [this]
    simp
  refine ⟨Matrix.of A, ?_, ?_, ?_⟩
  · intro i j
    change IsFloat p (smallPivot ε i j) ∧ 0 ≤ smallPivot ε i j ∧ smallPivot ε i j ≤ 1
    simp only [smallPivot, Matrix.of_apply]
    split_ifs
    · exact ⟨fε, hε0.le, hε1⟩
    · exact ⟨f0, le_rfl, zero_le_one⟩
    · exact ⟨f1, zero_le_one, le_rfl⟩
    · exact ⟨f1, zero_le_one, le_rfl⟩
    · exact ⟨f0, le_rfl, zero_le_one⟩
  · exact smallPivot_det hn ε
  · have hn0 : 0 < n := by omega
    have hn1 : 0 + 1 < n := by omega
    have hn2 : 0 + 1 + 1 < n := by omega
    have hn3 : 0 + 1 + 1 + 1 < n := by omega
    have hrun : forUp n 0 (fun k => Fl.bareissStep fl pd k.castSucc) (some (⟨A, false⟩ : Bareiss ℝ (n + 1))) = none := by
      rw [forUp_step hn0, forUp_step hn1, forUp_step hn2, forUp_step hn3]
      rw [show Fl.bareissStep fl pd (Fin.castSucc ⟨0, hn0⟩) (some (⟨A, false⟩ : Bareiss ℝ (n + 1))) = _ from s0,
        show Fl.bareissStep fl pd (Fin.castSucc ⟨0 + 1, hn1⟩) (some (⟨X1, false⟩ : Bareiss ℝ (n + 1))) = _ from s1,
        show Fl.bareissStep fl pd (Fin.castSucc ⟨0 + 1 + 1, hn2⟩) (some (⟨X2, false⟩ : Bareiss ℝ (n + 1))) = _ from s2,
        show Fl.bareissStep fl pd (Fin.castSucc ⟨0 + 1 + 1 + 1, hn3⟩) (some (⟨X3, false⟩ : Bareiss ℝ (n + 1))) = _ from s3]
      exact forUp_inv (n := n) (lo := 0 + 1 + 1 + 1 + 1) (body := fun k => Fl.bareissStep fl pd k.castSucc) (s := none) (fun _ s => s = none) (by omega) rfl
        (by rintro i s _ rfl; rfl)
    change (match forUp n 0 (fun k => Fl.bareissStep fl pd k.castSucc) (some (⟨A, false⟩ : Bareiss ℝ (n + 1))) with
      | none => (0 : ℝ)
      | some b => if b.flipSign then -b.inPlace (Fin.last n) (Fin.last n) else b.inPlace (Fin.last n) (Fin.last n)) = 0
    rw [hrun]

/-! ## Examples -/

private def tridiagonal : Matrix (Fin 5) (Fin 5) ℤ := !![3, -1, 0, 0, 2; -1, 3, -1, 0, 0; 0, -1, 3, -1, 0; 0, 0, -1, 3, -1; 1, 0, 0, -1, 3]

private theorem tridiagonal_leading : ∀ s (h : s ≤ 5), (leading tridiagonal s h).det ≠ 0 := by
  intro s h
  match s, h with
  | 0, _ => decide +kernel +revert
  | 1, _ => decide +kernel +revert
  | 2, _ => decide +kernel +revert
  | 3, _ => decide +kernel +revert
  | 4, _ => decide +kernel +revert
  | 5, _ => decide +kernel +revert

private theorem tridiagonal_bordered : ∀ q : Fin 5, ∀ r c : Fin 5, q ≤ r → q ≤ c → |bordered tridiagonal q r c| ≤ 200 := by decide +kernel

/-- The hypotheses of `C152_exact_partial` are met in single precision. -/
example : Fl.bareiss (flAway 24) (fun a b c d => flAway 24 (flAway 24 (a * b) - flAway 24 (c * d))) (Matrix.of fun i j => (tridiagonal i j : ℝ)) =
    tridiagonal.det :=
  C152_exact_partial (flAway_roundsToNearest (by norm_num)) (fun _ _ _ _ => Or.inl rfl) tridiagonal (fun s h => tridiagonal_leading s (by omega)) 200
    (fun q r c hr hc => tridiagonal_bordered ⟨q, by omega⟩ r c hr hc) (by norm_num)

/-- The hypotheses of `C152_backward_partial` are met: the same matrix has no zero pivot. -/
example : ∃ X, Fl.BareissRun (flAway 24) (fun a b c d => flAway 24 (a * b - flAway 24 (c * d))) (fun i j => (tridiagonal i j : ℝ)) X ∧
    ∀ k : Fin 4, X k.val k.castSucc k.castSucc ≠ 0 := by
  obtain ⟨X, hX⟩ := exists_run (flAway 24) (fun a b c d => flAway 24 (a * b - flAway 24 (c * d))) (fun i j => (tridiagonal i j : ℝ))
  refine ⟨X, hX, fun k => ?_⟩
  obtain ⟨Y, d, _, hd, _, hdl, _⟩ := run_int (flAway_roundsToNearest (by norm_num)) (fun _ _ _ _ => Or.inr (Or.inl rfl)) tridiagonal
    (fun s h => tridiagonal_leading s (by omega)) 200 (fun q r c hr hc => tridiagonal_bordered ⟨q, by omega⟩ r c hr hc) (by norm_num) X hX (k.val + 1) (by omega)
  have e : min k.val 4 = k.val := by omega
  simp only [Fl.prevPivot, e] at hd
  change X k.val ⟨k.val, _⟩ ⟨k.val, _⟩ ≠ 0
  rw [hd, hdl (by omega) (by omega)]
  exact_mod_cast tridiagonal_leading _ _

/-- A matrix of dimension 5 that is dominated by its diagonal, in single precision. -/
example : ∃ B : Matrix (Fin 5) (Fin 5) ℝ,
    Fl.bareiss (n := 4) (flAway 24) (fun a b c d => flAway 24 (a * b - flAway 24 (c * d))) (Matrix.of fun i j : Fin 5 => if i = j then (3 : ℝ) else 1 / 4) = B.det ∧
      ∀ j, ∑ i, |(if i = j then 3 else 1 / 4) - B i j| ≤ (bareissGrowth 24 ^ 4 - 1) * (2 * bareissGrowth 24 ^ 4 / (1 - 1 / 3 * bareissGrowth 24 ^ 4)) *
        ∑ i : Fin 5, |if i = j then (3 : ℝ) else 1 / 4| := by
  obtain ⟨g1, g2⟩ := C152_growth (p := 24) (by norm_num)
  have hg : bareissGrowth 24 ≤ 1 + 1 / 1000 := g2.trans (by norm_num)
  refine C152_columns_partial (n := 4) (by norm_num) (flAway_roundsToNearest (by norm_num)) (fun _ _ _ _ => Or.inr (Or.inl rfl)) _ (by norm_num) ?_ ?_ ?_
  · have := pow_le_pow_left₀ (by linarith) hg 4
    norm_num at this ⊢
    linarith
  · intro j
    simp
  · intro j
    simp only [Matrix.of_apply, if_true]
    have : ∀ i : Fin 5, (if i = j then (0 : ℝ) else |if i = j then (3 : ℝ) else 1 / 4|) = 1 / 4 - if i = j then 1 / 4 else 0 := by
      intro i
      by_cases h : i = j
      · simp [h]
      · simp [h]
    rw [Finset.sum_congr rfl fun i _ => this i, Finset.sum_sub_distrib, Finset.sum_ite_eq' Finset.univ j]
    norm_num

/-- In single precision, the determinant of every matrix of dimension 5 whose columns are dominated by the diagonal with `θ = 1 / 3` has an error of at most one thousandth. -/
example (A : Matrix (Fin 5) (Fin 5) ℝ) (h0 : ∀ j, A j j ≠ 0) (hd : ∀ j, (∑ i, if i = j then 0 else |A i j|) ≤ 1 / 3 * |A j j|) :
    |Fl.bareiss (n := 4) (flAway 24) (fun a b c d => flAway 24 (a * b - flAway 24 (c * d))) A - A.det| ≤ 1 / 1000 * |A.det| := by
  obtain ⟨g1, g2⟩ := C152_growth (p := 24) (by norm_num)
  have hg : bareissGrowth 24 ≤ 1 + 1 / 1000000 := g2.trans (by norm_num)
  have hg4 := pow_le_pow_left₀ (by linarith) hg 4
  have h14 := one_le_pow₀ g1 (n := 4)
  set R := bareissGrowth 24 ^ 4 with hR
  have hR5 : R ≤ 1 + 5 / 1000000 := hg4.trans (by norm_num)
  have hc : (R - 1) * (2 * R / (1 - 1 / 3 * R)) * (1 + 1 / 3) ≤ 5 / 1000000 * (2 * (1 + 5 / 1000000) / (1 - 1 / 3 * (1 + 5 / 1000000))) * (1 + 1 / 3) := by
    have h1 : 2 * R / (1 - 1 / 3 * R) ≤ 2 * (1 + 5 / 1000000) / (1 - 1 / 3 * (1 + 5 / 1000000)) :=
      div_le_div₀ (by norm_num) (by linarith) (by norm_num) (by linarith)
    have h2 : 0 ≤ 2 * R / (1 - 1 / 3 * R) := div_nonneg (by linarith) (by linarith)
    exact mul_le_mul_of_nonneg_right (mul_le_mul (by linarith) h1 h2 (by norm_num)) (by norm_num)
  have hc0 : 0 ≤ (R - 1) * (2 * R / (1 - 1 / 3 * R)) * (1 + 1 / 3) :=
    mul_nonneg (mul_nonneg (by linarith) (div_nonneg (by linarith) (by linarith))) (by norm_num)
  set η := (R - 1) * (2 * R / (1 - 1 / 3 * R)) * (1 + 1 / 3) with hη
  have hη' : η ≤ 3 / 100000 := hc.trans (by norm_num)
  have := C152_accuracy_partial (n := 4) (p := 24) (θ := 1 / 3) (θ' := 1 / 2) (by norm_num) (flAway_roundsToNearest (by norm_num))
    (fun _ _ _ _ => Or.inr (Or.inl rfl)) A (by norm_num) (by rw [← hR]; linarith) h0 (Or.inl hd) (by norm_num) (by norm_num)
    (by rw [← hR, ← hη]; linarith)
  rw [← hR, ← hη] at this
  refine this.trans (mul_le_mul_of_nonneg_right ?_ (abs_nonneg _))
  have h5 := pow_le_pow_left₀ (by positivity) (show 1 + η / (1 - 1 / 2) ≤ 1 + 6 / 100000 by rw [div_eq_mul_inv]; norm_num; linarith) 5
  refine (sub_le_sub_right h5 1).trans ?_
  norm_num

end Mathter.Props
