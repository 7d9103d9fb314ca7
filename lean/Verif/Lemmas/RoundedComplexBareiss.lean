import Verif.Model.RoundedComplexBareiss
import Verif.Lemmas.MachineBareiss
import Verif.Spec.BareissRunC
import Mathlib.LinearAlgebra.Matrix.Determinant.Basic
import Mathlib.LinearAlgebra.Matrix.Block
import Mathlib.Tactic.Ring
import Mathlib.Tactic.Linarith
import Mathlib.Tactic.FieldSimp

/-!
# Rounding errors of the Bareiss algorithm on complex matrices
-/

namespace Mathter.FlC
variable {n : ℕ} {dv : ℂ → ℂ → ℂ} {op : ℂ → ℂ → ℂ → ℂ → ℂ} {u : ℝ}

/-- The elimination loops compute every trailing element from the values before the loops. -/
theorem bareissElim_apply (dv : ℂ → ℂ → ℂ) (op : ℂ → ℂ → ℂ → ℂ → ℂ) (k : Fin n) (minor : ℂ) (a : Fin n → Fin n → ℂ) (r c : Fin n) :
    Fl.bareissElimC dv op k minor a r c = if k < r ∧ k < c then dv (op (a r c) (a k k) (a r k) (a k c)) minor else a r c := by
  have inner : ∀ (i : Fin n) (_ : k.val + 1 ≤ i.val) (x : Fin n → Fin n → ℂ) (r c : Fin n),
      forUp n (k.val + 1) (fun j a => fun r c => if r = i ∧ c = j then dv (op (a i j) (a k k) (a i k) (a k j)) minor else a r c) x r c
        = if r = i ∧ k < c then dv (op (x i c) (x k k) (x i k) (x k c)) minor else x r c := by
    intro i hi x
    have := forUp_inv (n := n) (lo := k.val + 1)
      (body := fun j a => fun r c => if r = i ∧ c = j then dv (op (a i j) (a k k) (a i k) (a k j)) minor else a r c) (s := x)
      (fun t y => ∀ r c : Fin n, y r c = if r = i ∧ k < c ∧ c.val < t then dv (op (x i c) (x k k) (x i k) (x k c)) minor else x r c)
      k.isLt (by intro r c; rw [if_neg]; rintro ⟨_, h1, h2⟩; simp only [Fin.lt_def] at h1; omega) (by
        intro j y hj hy r c
        have hki : k ≠ i := by intro e; subst e; omega
        dsimp only
        rw [hy i j, hy k k, hy i k, hy k j, hy r c]
        simp only [Fin.lt_def, hki, lt_self_iff_false, false_and, and_false, if_false]
        by_cases hr : r = i
        · by_cases hc : c = j
          · subst hr hc
            simp
            intro h; omega
          · have : c.val ≠ j.val := fun e => hc (Fin.ext e)
            simp only [hr, hc, and_false, if_false, true_and]
            congr 1
            apply propext
            omega
        · simp [hr])
    intro r c
    rw [this r c]
    simp
  unfold Fl.bareissElimC
  have := forUp_inv (n := n) (lo := k.val + 1) (body := fun i a => forUp n (k.val + 1) (fun j a =>
    fun r c => if r = i ∧ c = j then dv (op (a i j) (a k k) (a i k) (a k j)) minor else a r c) a) (s := a)
    (fun t y => ∀ r c : Fin n, y r c = if (k < r ∧ r.val < t) ∧ k < c then dv (op (a r c) (a k k) (a r k) (a k c)) minor else a r c)
    k.isLt (by intro r c; rw [if_neg]; rintro ⟨⟨h1, h2⟩, _⟩; simp only [Fin.lt_def] at h1; omega) (by
      intro i y hi hy r c
      rw [inner i hi y r c, hy i c, hy k k, hy i k, hy k c, hy r c]
      simp only [Fin.lt_def, lt_self_iff_false, false_and, and_false, if_false]
      by_cases hr : r = i
      · subst hr
        have hk : k < r := hi
        simp [hk]
      · have : r.val ≠ i.val := fun e => hr (Fin.ext e)
        simp only [hr, false_and, if_false]
        congr 1
        apply propext
        omega)
  rw [this r c]
  simp

theorem prevPivot_eq {A : Fin (n + 1) → Fin (n + 1) → ℂ} {X : ℕ → Fin (n + 1) → Fin (n + 1) → ℂ} (hX : BareissRun dv op A X) (k : Fin n) (hk : k.val ≠ 0) :
    prevPivot X k.val = X k.val ⟨k.val - 1, by omega⟩ ⟨k.val - 1, by omega⟩ := by
  obtain ⟨k, hkn⟩ := k
  cases k with
  | zero => exact absurd rfl hk
  | succ q =>
    have := hX.2 ⟨q, by omega⟩ ⟨q, by omega⟩ ⟨q, by omega⟩
    simp only [Fin.castSucc_mk, lt_self_iff_false, false_and, if_false] at this
    simp only [prevPivot, Nat.add_sub_cancel]
    rw [this]
    have e : min q n = q := by omega
    simp only [e]

/-- Without zero pivots the algorithm follows the run. -/
theorem bareiss_run {A : Matrix (Fin (n + 1)) (Fin (n + 1)) ℂ} {X : ℕ → Fin (n + 1) → Fin (n + 1) → ℂ} (hX : BareissRun dv op A X)
    (h0 : ∀ k, k < n → prevPivot X k ≠ 0) : Fl.bareissC dv op A = X n (Fin.last n) (Fin.last n) := by
  have main := forUp_inv (n := n) (lo := 0) (body := fun k => Fl.bareissStepC dv op k.castSucc) (s := some (⟨fun i j => A i j, false⟩ : Bareiss ℂ (n + 1)))
    (fun k s => s = some ⟨X k, false⟩) (Nat.zero_le _) (by congr 2; funext i j; exact (hX.1 i j).symm) (by
      rintro k s - rfl
      have hx : Fl.bareissElimC dv op k.castSucc (prevPivot X k.val) (X k.val) = X (k.val + 1) := by
        funext i j
        rw [bareissElim_apply, hX.2]
      by_cases hk : k.val = 0
      · have e : prevPivot X k.val = 1 := by rw [hk]; rfl
        simp only [Fl.bareissStepC, Option.bind_some, Fin.val_castSucc, hk, dif_pos]
        rw [← e, ← hk, hx]
      · simp only [Fl.bareissStepC, Option.bind_some, Fin.val_castSucc, hk, dif_neg, not_false_eq_true]
        rw [← prevPivot_eq hX k hk, bareissPivot_nonzero _ _ _ _ (h0 _ k.isLt)]
        simp only [h0 _ k.isLt, if_false]
        rw [hx])
  unfold Fl.bareissC
  rw [main]
  rfl

/-- Lower factor of a run. -/
noncomputable def runL (X : ℕ → Fin (n + 1) → Fin (n + 1) → ℂ) : Matrix (Fin (n + 1)) (Fin (n + 1)) ℂ :=
  Matrix.of fun i q => if q < i then X q.val i q / X q.val q q else if q = i then 1 else 0

/-- Upper factor of a run. -/
noncomputable def runU (X : ℕ → Fin (n + 1) → Fin (n + 1) → ℂ) : Matrix (Fin (n + 1)) (Fin (n + 1)) ℂ :=
  Matrix.of fun q j => if q ≤ j then X q.val q j / prevPivot X q.val else 0

theorem sum_tail {M : Type*} [AddCommMonoid M] {N : ℕ} (f : Fin N → M) (k : Fin N) :
    (∑ q : Fin N, if k.val ≤ q.val then f q else 0) = f k + ∑ q : Fin N, if k.val + 1 ≤ q.val then f q else 0 := by
  have : ∀ q : Fin N, (if k.val ≤ q.val then f q else 0) = (if q = k then f q else 0) + if k.val + 1 ≤ q.val then f q else 0 := by
    intro q
    by_cases h : q = k
    · subst h; simp
    · have : q.val ≠ k.val := fun e => h (Fin.ext e)
      by_cases h1 : k.val ≤ q.val
      · rw [if_pos h1, if_neg h, if_pos (by omega), zero_add]
      · rw [if_neg h1, if_neg h, if_neg (by omega), zero_add]
  rw [Finset.sum_congr rfl fun q _ => this q, Finset.sum_add_distrib, Finset.sum_ite_eq' Finset.univ k f, if_pos (Finset.mem_univ _)]

/-- One elimination is a step of Gaussian elimination of the quotients by the divisors, up to the relative error `u`. -/
def Elim (u : ℝ) (dv : ℂ → ℂ → ℂ) (op : ℂ → ℂ → ℂ → ℂ → ℂ) : Prop :=
  0 ≤ u ∧ ∀ x p a b d : ℂ, p ≠ 0 → d ≠ 0 →
    ‖dv (op x p a b) d / p - (x / d - a / p * (b / d))‖ ≤ u * (‖x / d‖ + ‖a / p * (b / d)‖)

/-- The growth of the errors. -/
theorem tail_bound {ε ρ R S : ℝ} {g g' t T : ℂ} (h0 : 0 ≤ ε) (h1 : ε < 1) (hρ : ρ = (1 + ε) / (1 - ε)) (hR : 1 ≤ R) (hS : ‖T‖ ≤ S)
    (hs : ‖g' - (g - t)‖ ≤ ε * (‖g‖ + ‖t‖)) (hg : ‖g' - T‖ ≤ (R - 1) * S) : ‖g - (t + T)‖ ≤ (R * ρ - 1) * (‖t‖ + S) := by
  have hpos : 0 < 1 - ε := by linarith
  have hρ' : (ρ - 1) * (1 - ε) = 2 * ε := by rw [hρ]; field_simp; ring
  have hρ1 : 0 ≤ ρ - 1 := by
    have : 0 ≤ (ρ - 1) * (1 - ε) := by linarith
    exact nonneg_of_mul_nonneg_left this hpos
  have hS0 : 0 ≤ S := (norm_nonneg _).trans hS
  have hg' : ‖g'‖ ≤ R * S := by
    have := norm_add_le (g' - T) T
    rw [sub_add_cancel] at this
    linarith
  have hgb : (1 - ε) * ‖g‖ ≤ ‖g'‖ + (1 + ε) * ‖t‖ := by
    have e : g = g' + t - (g' - (g - t)) := by ring
    have t1 := norm_sub_le (g' + t) (g' - (g - t))
    rw [← e] at t1
    have := norm_add_le g' t
    linarith
  have hδ : ‖g' - (g - t)‖ ≤ (ρ - 1) / 2 * (R * S + 2 * ‖t‖) := by
    refine hs.trans ?_
    have e : ε = (ρ - 1) / 2 * (1 - ε) := by linarith
    have : ε * (‖g‖ + ‖t‖) = (ρ - 1) / 2 * ((1 - ε) * ‖g‖ + (1 - ε) * ‖t‖) := by
      calc ε * (‖g‖ + ‖t‖) = (ρ - 1) / 2 * (1 - ε) * (‖g‖ + ‖t‖) := by rw [← e]
        _ = _ := by ring
    rw [this]
    refine mul_le_mul_of_nonneg_left ?_ (by linarith)
    linarith
  have e : g - (t + T) = (g' - T) - (g' - (g - t)) := by ring
  rw [e]
  refine (norm_sub_le _ _).trans ?_
  have hRS : 0 ≤ (ρ - 1) * (R * S) := mul_nonneg hρ1 (mul_nonneg (by linarith) hS0)
  have ht : 0 ≤ (R - 1) * ρ * ‖t‖ := mul_nonneg (mul_nonneg (by linarith) (by linarith)) (norm_nonneg t)
  have : (R * ρ - 1) * (‖t‖ + S) = (R - 1) * S + (ρ - 1) * (R * S) + ((ρ - 1) * ‖t‖ + (R - 1) * ρ * ‖t‖) := by ring
  rw [this]
  have e2 : (ρ - 1) / 2 * (R * S + 2 * ‖t‖) = (ρ - 1) * (R * S) / 2 + (ρ - 1) * ‖t‖ := by ring
  rw [e2] at hδ
  linarith

/-- The product of the factors of a run is close to the matrix. -/
theorem run_backward (hE : Elim u dv op) {A : Matrix (Fin (n + 1)) (Fin (n + 1)) ℂ} {X : ℕ → Fin (n + 1) → Fin (n + 1) → ℂ}
    (hX : BareissRun dv op A X) (hp : ∀ k, k ≤ n → prevPivot X k ≠ 0) (hu : (1 + u) < 2) {ρ : ℝ} (hρ : ρ = (1 + u) / (2 - (1 + u)))
    (i j : Fin (n + 1)) : ‖A i j - (runL X * runU X) i j‖ ≤ (ρ ^ n - 1) * ∑ q, ‖runL X i q * runU X q j‖ := by
  set ε := u with hε
  have h0 : 0 ≤ ε := by have := hE.1; linarith
  have h1 : ε < 1 := by linarith
  have hρ' : ρ = (1 + ε) / (1 - ε) := by rw [hρ]; congr 1; ring
  have hρ1 : 1 ≤ ρ := by rw [hρ', le_div_iff₀ (by linarith)]; linarith
  have piv : ∀ q : Fin (n + 1), q.val < n → X q.val q q ≠ 0 := by
    intro q hq
    have := hp (q.val + 1) (by omega)
    have e : min q.val n = q.val := by omega
    simpa only [prevPivot, e] using this
  set m := min i.val j.val with hm
  have key : ∀ r k : ℕ, k + r = m →
      ‖X k i j / prevPivot X k - ∑ q : Fin (n + 1), (if k ≤ q.val then runL X i q * runU X q j else 0)‖ ≤
        (ρ ^ r - 1) * ∑ q : Fin (n + 1), if k ≤ q.val then ‖runL X i q * runU X q j‖ else 0 := by
    intro r
    induction r with
    | zero =>
      intro k hk
      have hkm : k = m := by omega
      have hzero : ∀ q : Fin (n + 1), k + 1 ≤ q.val → runL X i q * runU X q j = 0 := by
        intro q hq
        unfold runL runU
        simp only [Matrix.of_apply]
        rcases le_total i.val j.val with hij | hij
        · rw [if_neg (by simp only [Fin.lt_def]; omega), if_neg (by intro e; have := congrArg Fin.val e; omega), zero_mul]
        · rw [if_neg (show ¬ q ≤ j by simp only [Fin.le_def]; omega), mul_zero]
      have hkn : k < n + 1 := by omega
      have s1 := sum_tail (fun q => runL X i q * runU X q j) ⟨k, hkn⟩
      simp only at s1
      rw [s1, Finset.sum_eq_zero (s := Finset.univ) (f := fun q : Fin (n + 1) => if k + 1 ≤ q.val then runL X i q * runU X q j else 0)
        (by intro q _; split; exact hzero q (by assumption); rfl)]
      have e : runL X i ⟨k, hkn⟩ * runU X ⟨k, hkn⟩ j = X k i j / prevPivot X k := by
        unfold runL runU
        simp only [Matrix.of_apply]
        rw [if_pos (show (⟨k, hkn⟩ : Fin (n + 1)) ≤ j by simp only [Fin.le_def]; omega)]
        by_cases hki : k = i.val
        · have : (⟨k, hkn⟩ : Fin (n + 1)) = i := Fin.ext hki
          rw [this, if_neg (lt_irrefl _), if_pos rfl, one_mul]
        · rw [if_pos (show (⟨k, hkn⟩ : Fin (n + 1)) < i by simp only [Fin.lt_def]; omega)]
          have hkj : (⟨k, hkn⟩ : Fin (n + 1)) = j := Fin.ext (by simp only; omega)
          have := piv ⟨k, hkn⟩ (by simp only; omega)
          rw [hkj] at this ⊢
          have hkv : j.val = k := by rw [← hkj]
          rw [hkv] at this
          have := hp k (by omega)
          field_simp
      rw [e]
      simp
    | succ r ih =>
      intro k hk
      have hkn : k < n := by omega
      have ih' := ih (k + 1) (by omega)
      have s1 := sum_tail (fun q => runL X i q * runU X q j) ⟨k, by omega⟩
      have s2 := sum_tail (fun q => ‖runL X i q * runU X q j‖) ⟨k, by omega⟩
      simp only at s1 s2
      rw [s1, s2, pow_succ]
      refine tail_bound h0 h1 hρ' (one_le_pow₀ hρ1) ?_ ?_ ih'
      · refine (norm_sum_le _ _).trans (Finset.sum_le_sum fun q _ => ?_)
        split <;> simp
      · have hs := hX.2 ⟨k, hkn⟩ i j
        simp only [Fin.castSucc_mk] at hs
        rw [if_pos ⟨by simp only [Fin.lt_def]; omega, by simp only [Fin.lt_def]; omega⟩] at hs
        have hpk := piv ⟨k, by omega⟩ hkn
        simp only at hpk
        have e1 : prevPivot X (k + 1) = X k ⟨k, by omega⟩ ⟨k, by omega⟩ := by
          have e : min k n = k := by omega
          simp only [prevPivot, e]
        rw [e1, hs]
        have := hE.2 (X k i j) _ (X k i ⟨k, by omega⟩) (X k ⟨k, by omega⟩ j) _ hpk (hp k (by omega))
        have eL : runL X i ⟨k, by omega⟩ = X k i ⟨k, by omega⟩ / X k ⟨k, by omega⟩ ⟨k, by omega⟩ := by
          unfold runL
          simp only [Matrix.of_apply]
          rw [if_pos (by simp only [Fin.lt_def]; omega)]
        have eU : runU X ⟨k, by omega⟩ j = X k ⟨k, by omega⟩ j / prevPivot X k := by
          unfold runU
          simp only [Matrix.of_apply]
          rw [if_pos (by simp only [Fin.le_def]; omega)]
        rw [eL, eU]
        exact this
  have := key m 0 (Nat.zero_add _)
  simp only [Nat.zero_le, if_true] at this
  rw [hX.1, show prevPivot X 0 = 1 from rfl, div_one] at this
  rw [Matrix.mul_apply]
  refine this.trans (mul_le_mul_of_nonneg_right ?_ (Finset.sum_nonneg fun _ _ => norm_nonneg _))
  linarith [pow_le_pow_right₀ hρ1 (show m ≤ n by omega)]

/-- The product of the diagonal of the upper factor telescopes. -/
theorem run_det {X : ℕ → Fin (n + 1) → Fin (n + 1) → ℂ} (hp : ∀ k, k ≤ n → prevPivot X k ≠ 0) :
    (runL X * runU X).det = X n (Fin.last n) (Fin.last n) := by
  have hL : (runL X).det = 1 := by
    rw [Matrix.det_of_isLowerTriangular]
    · refine Finset.prod_eq_one fun i _ => ?_
      simp [runL]
    · intro i j hij
      have : i < j := hij
      simp only [runL, Matrix.of_apply]
      rw [if_neg (not_lt.2 this.le), if_neg this.ne']
  have hU : (runU X).det = ∏ q : Fin (n + 1), runU X q q := by
    refine Matrix.det_of_isUpperTriangular ?_
    intro i j hij
    have : j < i := hij
    simp only [runU, Matrix.of_apply]
    rw [if_neg (not_le.2 this)]
  have hT : ∀ m : ℕ, m ≤ n → ∏ q ∈ Finset.range (m + 1), (prevPivot X (q + 1) / prevPivot X q) = prevPivot X (m + 1) := by
    intro m hm
    induction m with
    | zero => simp [prevPivot]
    | succ m ih =>
      rw [Finset.prod_range_succ, ih (by omega)]
      have := hp (m + 1) hm
      field_simp
  rw [Matrix.det_mul, hL, one_mul, hU]
  have e : ∀ q : Fin (n + 1), runU X q q = prevPivot X (q.val + 1) / prevPivot X q.val := by
    intro q
    have e : min q.val n = q.val := by omega
    simp [runU, prevPivot, e]
  rw [Finset.prod_congr rfl fun q _ => e q, Fin.prod_univ_eq_prod_range (fun q => prevPivot X (q + 1) / prevPivot X q), hT n le_rfl]
  simp only [prevPivot, min_self]
  rfl

end Mathter.FlC
