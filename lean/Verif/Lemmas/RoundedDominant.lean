import Verif.Lemmas.RoundedBareiss
import Mathlib.Algebra.BigOperators.Field

/-!
# The Bareiss algorithm on diagonally dominant matrices
-/

namespace Mathter.Fl
variable {n : ℕ} {fl : ℝ → ℝ} {u : ℝ} {pd : ℝ → ℝ → ℝ → ℝ → ℝ}

theorem sum_split {N : ℕ} (f : Fin N → ℝ) (k : ℕ) (j : Fin N) (hj : k ≤ j.val) :
    (∑ i : Fin N, if k ≤ i.val then f i else 0) = f j + ∑ i : Fin N, if k ≤ i.val then (if i = j then 0 else f i) else 0 := by
  have : ∀ i : Fin N, (if k ≤ i.val then f i else 0) = (if i = j then f i else 0) + if k ≤ i.val then (if i = j then 0 else f i) else 0 := by
    intro i
    by_cases h : i = j
    · subst h; simp [hj]
    · simp [h]
  rw [Finset.sum_congr rfl fun i _ => this i, Finset.sum_add_distrib, Finset.sum_ite_eq' Finset.univ j f, if_pos (Finset.mem_univ _)]

/-- One step keeps a column dominated by its diagonal element, up to a factor. -/
theorem dom_step {ε ρ τ a w s l S' g' : ℝ} (h0 : 0 ≤ ε) (h1 : ε < 1) (hρ : ρ = (1 + ε) / (1 - ε)) (hτ0 : 0 ≤ τ) (hτρ : τ * ρ ≤ 1) (hτ1 : τ < 1)
    (ha : 0 < a) (hw : 0 ≤ w) (hs0 : 0 ≤ s) (hs : w + s ≤ τ * a) (hl : 0 ≤ l) (hlτ : l ≤ τ) (hS : S' ≤ (1 + ε) * (s + (τ - l) * w))
    (hg : (1 - ε) * a - (1 + ε) * (l * w) ≤ g') : 0 < g' ∧ S' ≤ τ * ρ * g' := by
  have hpos : 0 < 1 - ε := by linarith
  have hρ' : ρ * (1 - ε) = 1 + ε := by rw [hρ]; field_simp
  have hρ0 : 0 ≤ ρ := by rw [hρ]; positivity
  have hwτ : w ≤ τ * a := by linarith
  have hlw : l * w ≤ τ * (τ * a) := mul_le_mul hlτ hwτ hw hτ0
  constructor
  · have b1 : (1 + ε) * (l * w) ≤ (1 + ε) * (τ * (τ * a)) := mul_le_mul_of_nonneg_left hlw (by linarith)
    have b2 : (1 + ε) * (τ * (τ * a)) = (τ * ρ) * ((1 - ε) * (τ * a)) := by rw [← hρ']; ring
    have b3 : (τ * ρ) * ((1 - ε) * (τ * a)) ≤ 1 * ((1 - ε) * (τ * a)) := mul_le_mul_of_nonneg_right hτρ (by positivity)
    have b4 : (1 - ε) * (τ * a) < (1 - ε) * a := by
      refine mul_lt_mul_of_pos_left ?_ hpos
      have := mul_lt_mul_of_pos_right hτ1 ha
      linarith
    linarith
  · have c1 : τ * ρ * ((1 - ε) * a - (1 + ε) * (l * w)) ≤ τ * ρ * g' := mul_le_mul_of_nonneg_left hg (mul_nonneg hτ0 hρ0)
    have c2 : τ * ρ * ((1 - ε) * a - (1 + ε) * (l * w)) = (1 + ε) * (τ * a - (τ * ρ) * (l * w)) := by
      have : τ * ρ * ((1 - ε) * a) = (1 + ε) * (τ * a) := by rw [← hρ']; ring
      rw [mul_sub, this]
      ring
    have c3 : s + (τ - l) * w ≤ τ * a - (τ * ρ) * (l * w) := by
      have d1 : 0 ≤ (1 - τ) * w := mul_nonneg (by linarith) hw
      have d2 : 0 ≤ (1 - τ * ρ) * (l * w) := mul_nonneg (by linarith) (mul_nonneg hl hw)
      nlinarith
    have c4 := mul_le_mul_of_nonneg_left c3 (show 0 ≤ 1 + ε by linarith)
    linarith

/-- The entries of a run divided by the previous pivot. -/
noncomputable def runG (X : ℕ → Fin (n + 1) → Fin (n + 1) → ℝ) (k : ℕ) (i j : Fin (n + 1)) : ℝ := X k i j / prevPivot X k

/-- Every column from `k` on is dominated by its diagonal element. -/
def Dom (X : ℕ → Fin (n + 1) → Fin (n + 1) → ℝ) (k : ℕ) (τ : ℝ) : Prop :=
  prevPivot X k ≠ 0 ∧ ∀ j : Fin (n + 1), k ≤ j.val → runG X k j j ≠ 0 ∧
    (∑ i : Fin (n + 1), if k ≤ i.val then (if i = j then 0 else |runG X k i j|) else 0) ≤ τ * |runG X k j j|

theorem runG_step (h : Rounding fl u) (hpd : IsProdDiff fl pd) {A : Matrix (Fin (n + 1)) (Fin (n + 1)) ℝ} {X : ℕ → Fin (n + 1) → Fin (n + 1) → ℝ}
    (hX : BareissRun fl pd A X) (k : Fin n) (h0 : prevPivot X k.val ≠ 0) (h1 : runG X k.val k.castSucc k.castSucc ≠ 0) :
    prevPivot X (k.val + 1) ≠ 0 ∧ ∀ i j : Fin (n + 1), k.val < i.val → k.val < j.val →
      |runG X (k.val + 1) i j - (runG X k.val i j - runG X k.val i k.castSucc / runG X k.val k.castSucc k.castSucc * runG X k.val k.castSucc j)| ≤
        ((1 + u) ^ 3 - 1) * (|runG X k.val i j| + |runG X k.val i k.castSucc / runG X k.val k.castSucc k.castSucc * runG X k.val k.castSucc j|) := by
  have e1 : prevPivot X (k.val + 1) = X k.val k.castSucc k.castSucc := by
    have e : min k.val n = k.val := by omega
    simp only [prevPivot, e]
    rfl
  have hp : X k.val k.castSucc k.castSucc ≠ 0 := by
    intro e
    apply h1
    unfold runG
    rw [e, zero_div]
  refine ⟨by rw [e1]; exact hp, fun i j hi hj => ?_⟩
  have hs := hX.2 k i j
  rw [if_pos ⟨by simp only [Fin.lt_def, Fin.val_castSucc]; omega, by simp only [Fin.lt_def, Fin.val_castSucc]; omega⟩] at hs
  have := run_step h hpd (x := X k.val i j) (a := X k.val i k.castSucc) (b := X k.val k.castSucc j) hp h0
  have e2 : runG X k.val i k.castSucc / runG X k.val k.castSucc k.castSucc = X k.val i k.castSucc / X k.val k.castSucc k.castSucc := by
    unfold runG
    field_simp
  rw [e2]
  unfold runG
  rw [e1, hs]
  exact this

private theorem col_mults {X : ℕ → Fin (n + 1) → Fin (n + 1) → ℝ} {k : Fin (n + 1)} {τ : ℝ} (hD : Dom X k.val τ) :
    (∑ i : Fin (n + 1), if k.val + 1 ≤ i.val then |runG X k.val i k / runG X k.val k k| else 0) ≤ τ := by
  obtain ⟨hk0, hk⟩ := hD.2 k le_rfl
  have hpos := abs_pos.2 hk0
  rw [sum_tail (fun i => if i = k then 0 else |runG X k.val i k|) k, if_pos rfl, zero_add] at hk
  have : (∑ i : Fin (n + 1), if k.val + 1 ≤ i.val then |runG X k.val i k / runG X k.val k k| else 0) =
      (∑ i : Fin (n + 1), if k.val + 1 ≤ i.val then (if i = k then 0 else |runG X k.val i k|) else 0) / |runG X k.val k k| := by
    rw [Finset.sum_div]
    refine Finset.sum_congr rfl fun i _ => ?_
    by_cases h : k.val + 1 ≤ i.val
    · rw [if_pos h, if_pos h, if_neg (by rintro rfl; omega), abs_div]
    · rw [if_neg h, if_neg h, zero_div]
  rw [this, div_le_iff₀ hpos]
  exact hk

theorem dom_next (h : Rounding fl u) (hpd : IsProdDiff fl pd) {A : Matrix (Fin (n + 1)) (Fin (n + 1)) ℝ} {X : ℕ → Fin (n + 1) → Fin (n + 1) → ℝ}
    (hX : BareissRun fl pd A X) (hu : (1 + u) ^ 3 < 2) {ρ τ : ℝ} (hρ : ρ = (1 + u) ^ 3 / (2 - (1 + u) ^ 3)) (hτ0 : 0 ≤ τ) (hτρ : τ * ρ ≤ 1) (hτ1 : τ < 1)
    (k : Fin n) (hD : Dom X k.val τ) : Dom X (k.val + 1) (τ * ρ) ∧ ∀ j : Fin (n + 1), k.val < j.val →
      (∑ i : Fin (n + 1), if k.val + 1 ≤ i.val then |runG X (k.val + 1) i j| else 0) ≤
        (1 + u) ^ 3 * ((∑ i : Fin (n + 1), if k.val ≤ i.val then |runG X k.val i j| else 0) - (1 - τ) * |runG X k.val k.castSucc j|) := by
  set ε := (1 + u) ^ 3 - 1 with hε
  have hε' : (1 + u) ^ 3 = 1 + ε := by rw [hε]; ring
  have h0 : 0 ≤ ε := by have := h.one_le 3; linarith
  have h1 : ε < 1 := by linarith
  have hρ' : ρ = (1 + ε) / (1 - ε) := by rw [hρ, hε']; congr 1; ring
  obtain ⟨hp', hG⟩ := runG_step h hpd hX k hD.1 (hD.2 k.castSucc le_rfl).1
  have hL : (∑ i : Fin (n + 1), if k.val + 1 ≤ i.val then |runG X k.val i k.castSucc / runG X k.val k.castSucc k.castSucc| else 0) ≤ τ :=
    col_mults (k := k.castSucc) hD
  set l : Fin (n + 1) → ℝ := fun i => runG X k.val i k.castSucc / runG X k.val k.castSucc k.castSucc with hl
  -- the size of the new elements
  have hup : ∀ i j : Fin (n + 1), k.val < i.val → k.val < j.val →
      |runG X (k.val + 1) i j| ≤ (1 + ε) * (|runG X k.val i j| + |l i| * |runG X k.val k.castSucc j|) := by
    intro i j hi hj
    have e := hG i j hi hj
    have t1 := abs_add_le (runG X (k.val + 1) i j - (runG X k.val i j - l i * runG X k.val k.castSucc j)) (runG X k.val i j - l i * runG X k.val k.castSucc j)
    rw [sub_add_cancel] at t1
    have t2 := abs_sub (runG X k.val i j) (l i * runG X k.val k.castSucc j)
    rw [abs_mul] at e t2
    change _ ≤ ε * (|runG X k.val i j| + |l i| * |runG X k.val k.castSucc j|) at e
    linarith
  refine ⟨⟨hp', fun j hj => ?_⟩, fun j hj => ?_⟩
  · obtain ⟨hj0, hjd⟩ := hD.2 j (by omega)
    have hkj : k.castSucc ≠ j := by rintro rfl; simp at hj
    have hsum := sum_tail (fun i => if i = j then 0 else |runG X k.val i j|) k.castSucc
    simp only [Fin.val_castSucc] at hsum
    rw [hsum, if_neg hkj] at hjd
    have hls := sum_split (fun i => |l i|) (k.val + 1) j hj
    have := dom_step (ε := ε) (ρ := ρ) (τ := τ) (a := |runG X k.val j j|) (w := |runG X k.val k.castSucc j|)
      (s := ∑ i : Fin (n + 1), if k.val + 1 ≤ i.val then (if i = j then 0 else |runG X k.val i j|) else 0) (l := |l j|)
      (S' := ∑ i : Fin (n + 1), if k.val + 1 ≤ i.val then (if i = j then 0 else |runG X (k.val + 1) i j|) else 0) (g' := |runG X (k.val + 1) j j|)
      h0 h1 hρ' hτ0 hτρ hτ1 (abs_pos.2 hj0) (abs_nonneg _)
      (Finset.sum_nonneg fun i _ => by split; split; exact le_rfl; exact abs_nonneg _; exact le_rfl) hjd (abs_nonneg _) ?_ ?_ ?_
    · exact ⟨abs_pos.1 this.1, this.2⟩
    · have : 0 ≤ ∑ i : Fin (n + 1), if k.val + 1 ≤ i.val then (if i = j then 0 else |l i|) else 0 :=
        Finset.sum_nonneg fun i _ => by split; split; exact le_rfl; exact abs_nonneg _; exact le_rfl
      linarith
    · have b : (∑ i : Fin (n + 1), if k.val + 1 ≤ i.val then (if i = j then 0 else |runG X (k.val + 1) i j|) else 0) ≤
          (1 + ε) * ((∑ i : Fin (n + 1), if k.val + 1 ≤ i.val then (if i = j then 0 else |runG X k.val i j|) else 0) +
            (∑ i : Fin (n + 1), if k.val + 1 ≤ i.val then (if i = j then 0 else |l i|) else 0) * |runG X k.val k.castSucc j|) := by
        rw [Finset.sum_mul, ← Finset.sum_add_distrib, Finset.mul_sum]
        refine Finset.sum_le_sum fun i _ => ?_
        by_cases hi : k.val + 1 ≤ i.val
        · rw [if_pos hi, if_pos hi, if_pos hi]
          by_cases hij : i = j
          · rw [if_pos hij, if_pos hij, if_pos hij]; simp
          · rw [if_neg hij, if_neg hij, if_neg hij]
            exact hup i j hi hj
        · rw [if_neg hi, if_neg hi, if_neg hi]; simp
      refine b.trans (mul_le_mul_of_nonneg_left (add_le_add le_rfl (mul_le_mul_of_nonneg_right ?_ (abs_nonneg _))) (by linarith))
      linarith
    · have e := hG j j hj hj
      change _ ≤ ε * (|runG X k.val j j| + |l j * runG X k.val k.castSucc j|) at e
      have t1 := abs_sub_abs_le_abs_sub (runG X k.val j j - l j * runG X k.val k.castSucc j) (runG X (k.val + 1) j j)
      have t0 := abs_sub_comm (runG X k.val j j - l j * runG X k.val k.castSucc j) (runG X (k.val + 1) j j)
      have t2 := abs_sub_abs_le_abs_sub (runG X k.val j j) (l j * runG X k.val k.castSucc j)
      have t3 : |l j * runG X k.val k.castSucc j| = |l j| * |runG X k.val k.castSucc j| := abs_mul _ _
      rw [t3] at e t2
      change |runG X (k.val + 1) j j - (runG X k.val j j - l j * runG X k.val k.castSucc j)| ≤ _ at e
      linarith
  · have b : (∑ i : Fin (n + 1), if k.val + 1 ≤ i.val then |runG X (k.val + 1) i j| else 0) ≤
        (1 + ε) * ((∑ i : Fin (n + 1), if k.val + 1 ≤ i.val then |runG X k.val i j| else 0) +
          (∑ i : Fin (n + 1), if k.val + 1 ≤ i.val then |l i| else 0) * |runG X k.val k.castSucc j|) := by
      rw [Finset.sum_mul, ← Finset.sum_add_distrib, Finset.mul_sum]
      refine Finset.sum_le_sum fun i _ => ?_
      by_cases hi : k.val + 1 ≤ i.val
      · rw [if_pos hi, if_pos hi, if_pos hi]
        exact hup i j hi hj
      · rw [if_neg hi, if_neg hi, if_neg hi]; simp
    have hsum := sum_tail (fun i => |runG X k.val i j|) k.castSucc
    simp only [Fin.val_castSucc] at hsum
    rw [hsum, hε']
    refine b.trans (mul_le_mul_of_nonneg_left ?_ (by linarith))
    have := mul_le_mul_of_nonneg_right hL (abs_nonneg (runG X k.val k.castSucc j))
    linarith

/-- A run on a matrix whose columns are dominated by the diagonal has no zero pivot, and the factors are bounded by the matrix. -/
theorem dom_run (h : Rounding fl u) (hpd : IsProdDiff fl pd) {A : Matrix (Fin (n + 1)) (Fin (n + 1)) ℝ} {X : ℕ → Fin (n + 1) → Fin (n + 1) → ℝ}
    (hX : BareissRun fl pd A X) (hu : (1 + u) ^ 3 < 2) {ρ θ : ℝ} (hρ : ρ = (1 + u) ^ 3 / (2 - (1 + u) ^ 3)) (hθ0 : 0 ≤ θ) (hθ : θ * ρ ^ n < 1)
    (hd : ∀ j, A j j ≠ 0 ∧ (∑ i, if i = j then 0 else |A i j|) ≤ θ * |A j j|) :
    (∀ k, k ≤ n → prevPivot X k ≠ 0) ∧
      ∀ j, ∑ i, ∑ q, |runL X i q * runU X q j| ≤ 2 * ρ ^ n / (1 - θ * ρ ^ n) * ∑ i, |A i j| := by
  have hR : 1 ≤ (1 + u) ^ 3 := h.one_le 3
  have hρ1 : 1 ≤ ρ := by rw [hρ, le_div_iff₀ (by linarith)]; linarith
  have hρR : (1 + u) ^ 3 ≤ ρ := by
    rw [hρ, le_div_iff₀ (by linarith)]
    exact mul_le_of_le_one_right (by linarith) (by linarith)
  have hlt : ∀ k, k ≤ n → θ * ρ ^ k < 1 := fun k hk =>
    (mul_le_mul_of_nonneg_left (pow_le_pow_right₀ hρ1 hk) hθ0).trans_lt hθ
  have hn0 : ∀ k, 0 ≤ θ * ρ ^ k := fun k => mul_nonneg hθ0 (pow_nonneg (by linarith) k)
  have g0 : ∀ i j, runG X 0 i j = A i j := fun i j => by rw [runG, hX.1]; simp [prevPivot]
  have hDom : ∀ k, k ≤ n → Dom X k (θ * ρ ^ k) := by
    intro k
    induction k with
    | zero =>
      refine fun _ => ⟨one_ne_zero, fun j _ => ?_⟩
      simp only [g0, Nat.zero_le, if_true, pow_zero, mul_one]
      exact hd j
    | succ k ih =>
      intro hk
      have := (dom_next h hpd hX hu hρ (hn0 k) (by rw [mul_assoc, ← pow_succ]; exact (hlt (k + 1) hk).le) (hlt k (by omega)) ⟨k, hk⟩ (ih (by omega))).1
      rw [mul_assoc, ← pow_succ] at this
      exact this
  refine ⟨fun k hk => (hDom k hk).1, fun j => ?_⟩
  set T := θ * ρ ^ n with hT
  have hTk : ∀ k, k ≤ n → θ * ρ ^ k ≤ T := fun k hk => mul_le_mul_of_nonneg_left (pow_le_pow_right₀ hρ1 hk) hθ0
  have hT0 : 0 ≤ T := hn0 n
  -- the upper factor
  have hUle : ∀ q : Fin (n + 1), q ≤ j → runU X q j = runG X q.val q j := by
    intro q hq
    simp only [runU, Matrix.of_apply]
    rw [if_pos hq]
    rfl
  have hU : ∀ r k : ℕ, k + r = j.val → (1 - T) * (∑ q : Fin (n + 1), if k ≤ q.val then |runU X q j| else 0) ≤
      ρ ^ r * ∑ i : Fin (n + 1), if k ≤ i.val then |runG X k i j| else 0 := by
    intro r
    induction r with
    | zero =>
      intro k hk
      have hkj : k = j.val := by omega
      subst hkj
      rw [sum_tail (fun q => |runU X q j|) j, sum_tail (fun i => |runG X j.val i j|) j]
      have hz : (∑ q : Fin (n + 1), if j.val + 1 ≤ q.val then |runU X q j| else 0) = 0 := by
        refine Finset.sum_eq_zero fun q _ => ?_
        split
        · rename_i hq
          simp only [runU, Matrix.of_apply]
          rw [if_neg (show ¬ q ≤ j by simp only [Fin.le_def]; omega), abs_zero]
        · rfl
      rw [hz, add_zero, hUle j le_rfl, pow_zero, one_mul]
      have h1 : 0 ≤ ∑ i : Fin (n + 1), if j.val + 1 ≤ i.val then |runG X j.val i j| else 0 :=
        Finset.sum_nonneg fun i _ => by split; exact abs_nonneg _; exact le_rfl
      have h2 : (1 - T) * |runG X j.val j j| ≤ 1 * |runG X j.val j j| := mul_le_mul_of_nonneg_right (by linarith) (abs_nonneg _)
      linarith
    | succ r ih =>
      intro k hk
      have hkn : k < n := by omega
      have ih' := ih (k + 1) (by omega)
      have st := (dom_next h hpd hX hu hρ (hn0 k) (by rw [mul_assoc, ← pow_succ]; exact (hlt (k + 1) hkn).le) (hlt k (by omega)) ⟨k, hkn⟩
        (hDom k (by omega))).2 j (by simp only; omega)
      simp only [Fin.castSucc_mk] at st
      have s1 := sum_tail (fun q => |runU X q j|) ⟨k, by omega⟩
      simp only at s1
      rw [s1, hUle ⟨k, by omega⟩ (by simp only [Fin.le_def]; omega)]
      set w := |runG X k ⟨k, by omega⟩ j| with hw
      have hw0 : 0 ≤ w := abs_nonneg _
      set σ := ∑ i : Fin (n + 1), if k ≤ i.val then |runG X k i j| else 0 with hσ
      have hσ0 : 0 ≤ σ := Finset.sum_nonneg fun i _ => by split; exact abs_nonneg _; exact le_rfl
      set σ' := ∑ i : Fin (n + 1), if k + 1 ≤ i.val then |runG X (k + 1) i j| else 0 with hσ'
      set V := ∑ q : Fin (n + 1), if k + 1 ≤ q.val then |runU X q j| else 0 with hV
      have hr1 : 1 ≤ ρ ^ r := one_le_pow₀ hρ1
      have st' : σ' ≤ (1 + u) ^ 3 * (σ - (1 - T) * w) := by
        refine st.trans (mul_le_mul_of_nonneg_left ?_ (by linarith))
        have := mul_le_mul_of_nonneg_right (hTk k (by omega)) hw0
        linarith
      have hq : ρ ^ r * σ' ≤ ρ ^ r * ((1 + u) ^ 3 * (σ - (1 - T) * w)) := mul_le_mul_of_nonneg_left st' (by linarith)
      have hc : 1 ≤ ρ ^ r * (1 + u) ^ 3 := by
        have := mul_le_mul hr1 hR zero_le_one (by linarith : (0 : ℝ) ≤ ρ ^ r)
        linarith
      have hc2 : ρ ^ r * (1 + u) ^ 3 ≤ ρ ^ (r + 1) := by
        rw [pow_succ]
        exact mul_le_mul_of_nonneg_left hρR (by linarith)
      have m1 := mul_le_mul_of_nonneg_right hc2 hσ0
      have m2 : 0 ≤ (ρ ^ r * (1 + u) ^ 3 - 1) * ((1 - T) * w) := mul_nonneg (by linarith) (mul_nonneg (by linarith) hw0)
      have e : (1 - T) * (w + V) = (1 - T) * w + (1 - T) * V := by ring
      have e2 : ρ ^ r * ((1 + u) ^ 3 * (σ - (1 - T) * w)) = ρ ^ r * (1 + u) ^ 3 * σ - ρ ^ r * (1 + u) ^ 3 * ((1 - T) * w) := by ring
      rw [e]
      linarith
  have hU0 := hU j.val 0 (Nat.zero_add _)
  simp only [Nat.zero_le, if_true, g0] at hU0
  -- the lower factor
  have hL : ∀ q : Fin (n + 1), ∑ i, |runL X i q| ≤ 2 := by
    intro q
    have := sum_split (fun i => |runL X i q|) 0 q (Nat.zero_le _)
    simp only [Nat.zero_le, if_true] at this
    rw [this]
    have h1 : |runL X q q| = 1 := by simp [runL]
    have h2 : (∑ i : Fin (n + 1), if i = q then 0 else |runL X i q|) =
        ∑ i : Fin (n + 1), if q.val + 1 ≤ i.val then |runG X q.val i q / runG X q.val q q| else 0 := by
      refine Finset.sum_congr rfl fun i _ => ?_
      simp only [runL, Matrix.of_apply]
      by_cases hi : i = q
      · subst hi; simp
      · by_cases hlt : q < i
        · have hqi : q.val + 1 ≤ i.val := hlt
          rw [if_neg hi, if_pos hlt, if_pos hqi]
          have hp := (hDom q.val (by omega)).1
          have : X q.val q q ≠ 0 := by
            intro e
            apply ((hDom q.val (by omega)).2 q le_rfl).1
            rw [runG, e, zero_div]
          congr 1
          unfold runG
          field_simp
        · rw [if_neg hi, if_neg hlt, if_neg (by omega : ¬ q = i), if_neg (by simp only [Fin.lt_def] at hlt; omega), abs_zero]
    rw [h1, h2]
    have := col_mults (hDom q.val (by omega))
    have := hlt q.val (by omega)
    linarith
  rw [Finset.sum_comm]
  have hstep : (∑ q, ∑ i, |runL X i q * runU X q j|) ≤ 2 * ∑ q, |runU X q j| := by
    rw [Finset.mul_sum]
    refine Finset.sum_le_sum fun q _ => ?_
    simp only [abs_mul]
    rw [← Finset.sum_mul]
    exact mul_le_mul_of_nonneg_right (hL q) (abs_nonneg _)
  refine hstep.trans ?_
  rw [div_mul_eq_mul_div, le_div_iff₀ (by linarith)]
  have hA0 : 0 ≤ ∑ i, |A i j| := Finset.sum_nonneg fun _ _ => abs_nonneg _
  have := mul_le_mul_of_nonneg_right (pow_le_pow_right₀ hρ1 (show j.val ≤ n by omega)) hA0
  nlinarith

end Mathter.Fl
