import Verif.Lemmas.RoundedComplexDominant
import Verif.Lemmas.ComplexDominantDet
import Verif.Props.RoundedBareiss
import Verif.Props.RoundedComplexDeterminant

/-!
# Property C153: the rounding of determinants of complex matrices of dimension 5 and above

As for real matrices (C152) the property is false as stated: `C153_violated` gives, in every dimension from 5, for every precision from 8 and every accurate
division, a matrix of numbers between 0 and 1 with determinant almost 2 whose computed determinant is 0. `C153_backward_partial` proves that without zero
pivots the result is the determinant of a product of triangular factors that is close to the matrix relative to the product of the moduli of the factors,
`C153_columns_partial` and `C153_rows_partial` that for matrices dominated by their diagonal no pivot is zero and the result is the determinant of a matrix
close to the given one, and `C153_accuracy_partial` that it is then accurate.
-/

namespace Mathter.Props
open Mathter
variable {n : ℕ}

/-- Growth of the errors by one step: about `1 + 26 * 2 ^ (-p)`. -/
noncomputable def bareissGrowthC (p : ℕ) : ℝ := (1 + 13 * (2 : ℝ) ^ (-(p : ℤ))) / (1 - 13 * (2 : ℝ) ^ (-(p : ℤ)))

private theorem unit_le_c {p : ℕ} (hp : 8 ≤ p) : (2 : ℝ) ^ (-(p : ℤ)) ≤ 1 / 256 := by
  rw [show (1 / 256 : ℝ) = (2 : ℝ) ^ (-(8 : ℤ)) by norm_num]
  exact zpow_le_zpow_right₀ (by norm_num) (by omega)

/-- The growth is `1 + 28 * 2 ^ (-p)` at most. -/
theorem C153_growth {p : ℕ} (hp : 8 ≤ p) : 1 ≤ bareissGrowthC p ∧ bareissGrowthC p ≤ 1 + 28 * (2 : ℝ) ^ (-(p : ℤ)) := by
  have h := unit_le_c hp
  have hpos : (0 : ℝ) < (2 : ℝ) ^ (-(p : ℤ)) := by positivity
  unfold bareissGrowthC
  set v := (2 : ℝ) ^ (-(p : ℤ))
  clear_value v
  constructor
  · rw [le_div_iff₀ (by linarith)]; linarith
  · rw [div_le_iff₀ (by linarith)]
    nlinarith

private theorem growth_eq (p : ℕ) : bareissGrowthC p = (1 + 13 * (2 : ℝ) ^ (-(p : ℤ))) / (2 - (1 + 13 * (2 : ℝ) ^ (-(p : ℤ)))) := by
  unfold bareissGrowthC
  congr 1
  ring

private theorem thirteen_lt {p : ℕ} (hp : 8 ≤ p) : 1 + 13 * (2 : ℝ) ^ (-(p : ℤ)) < 2 := by linarith [unit_le_c hp]

/-- The rounded product differences and an accurate division eliminate up to 13 rounding errors. -/
private theorem elim_pdC {p : ℕ} (hp : 8 ≤ p) {fl : ℝ → ℝ} (hfl : RoundsToNearest p fl) {ps pd : ℝ → ℝ → ℝ → ℝ → ℝ} (hps : Fl.IsProdSum fl ps)
    (hpd : Fl.IsProdDiff fl pd) {dv : ℂ → ℂ → ℂ} (hdv : AccurateDivC p dv) : FlC.Elim (13 * (2 : ℝ) ^ (-(p : ℤ))) dv (Fl.pdC fl ps pd) := by
  have hv := unit_le_c hp
  have hv0 : (0 : ℝ) < (2 : ℝ) ^ (-(p : ℤ)) := by positivity
  refine ⟨by positivity, fun x q a b d hq hd => ?_⟩
  have h1 := C147_det2 (hfl.rounding (by omega)) (by linarith) hps hpd !![x, b; a, q]
  rw [Matrix.det_fin_two] at h1
  unfold normPerm at h1
  rw [permanent_two] at h1
  simp only [Fl.det2C, Matrix.map_apply, Matrix.of_apply, Matrix.cons_val', Matrix.cons_val_zero, Matrix.cons_val_one, Matrix.cons_val_fin_one] at h1
  have h2 := (hdv (Fl.pdC fl ps pd x q a b) d hd).2
  set z := Fl.pdC fl ps pd x q a b with hz
  set v := (2 : ℝ) ^ (-(p : ℤ)) with hvd
  clear_value v z
  have hM : ‖x * q - b * a‖ ≤ ‖x‖ * ‖q‖ + ‖b‖ * ‖a‖ := by
    have := norm_sub_le (x * q) (b * a)
    rwa [norm_mul, norm_mul] at this
  have hzM : ‖z‖ ≤ (1 + 3 * v) ^ 2 * (‖x‖ * ‖q‖ + ‖b‖ * ‖a‖) := by
    have := norm_sub_norm_le z (x * q - b * a)
    linarith
  have hM0 : 0 ≤ ‖x‖ * ‖q‖ + ‖b‖ * ‖a‖ := by positivity
  have hd' := norm_pos_iff.2 hd
  have hq' := norm_pos_iff.2 hq
  have e : dv z d / q - (x / d - a / q * (b / d)) = ((dv z d - z / d) + (z - (x * q - b * a)) / d) / q := by
    field_simp
    ring
  rw [e, norm_div, div_le_iff₀ hq']
  refine (norm_add_le _ _).trans ?_
  have e2 : 13 * v * (‖x / d‖ + ‖a / q * (b / d)‖) * ‖q‖ = 13 * v * (‖x‖ * ‖q‖ + ‖b‖ * ‖a‖) / ‖d‖ := by
    rw [norm_mul, norm_div, norm_div, norm_div]
    field_simp
  rw [e2]
  rw [norm_div] at h2
  rw [norm_div]
  have h3 : ‖dv z d - z / d‖ + ‖z - (x * q - b * a)‖ / ‖d‖ ≤ (6 * v * ‖z‖ + ‖z - (x * q - b * a)‖) / ‖d‖ := by
    rw [add_div, mul_div_assoc]
    linarith
  refine h3.trans (div_le_div_of_nonneg_right ?_ hd'.le)
  have h4 := mul_le_mul_of_nonneg_left hzM (show 0 ≤ 6 * v by linarith)
  have h5 : (6 * v * (1 + 3 * v) ^ 2 + ((1 + 3 * v) ^ 2 - 1)) * (‖x‖ * ‖q‖ + ‖b‖ * ‖a‖) ≤ 13 * v * (‖x‖ * ‖q‖ + ‖b‖ * ‖a‖) := by
    refine mul_le_mul_of_nonneg_right ?_ hM0
    nlinarith [mul_nonneg hv0.le hv0.le, mul_nonneg (mul_nonneg hv0.le hv0.le) hv0.le, mul_nonneg hv0.le (sub_nonneg.2 hv),
      mul_nonneg (mul_nonneg hv0.le hv0.le) (sub_nonneg.2 hv)]
  linarith

/-- C153, partial: if no pivot is zero, then the computed determinant is exactly that of `L * U` with a unit lower triangular `L`, an upper triangular `U`, and
`L * U` differs from the matrix by at most `(ρ ^ n - 1) * ‖L‖ * ‖U‖`, `ρ = bareissGrowthC p`. Missing: a bound of the factors by the matrix, which does not
exist (`C153_violated`). -/
theorem C153_backward_partial {p : ℕ} (hp : 8 ≤ p) {fl : ℝ → ℝ} (hfl : RoundsToNearest p fl) {ps pd : ℝ → ℝ → ℝ → ℝ → ℝ} (hps : Fl.IsProdSum fl ps)
    (hpd : Fl.IsProdDiff fl pd) {dv : ℂ → ℂ → ℂ} (hdv : AccurateDivC p dv)
    (A : Matrix (Fin (n + 1)) (Fin (n + 1)) ℂ) (X : ℕ → Fin (n + 1) → Fin (n + 1) → ℂ) (hX : FlC.BareissRun dv (Fl.pdC fl ps pd) A X)
    (h0 : ∀ k : Fin n, X k.val k.castSucc k.castSucc ≠ 0) :
    ∃ L U : Matrix (Fin (n + 1)) (Fin (n + 1)) ℂ, (∀ i, L i i = 1) ∧ (∀ i j, i < j → L i j = 0) ∧ (∀ i j, j < i → U i j = 0) ∧
      Fl.bareissC dv (Fl.pdC fl ps pd) A = (L * U).det ∧
      ∀ i j, ‖A i j - (L * U) i j‖ ≤
        (bareissGrowthC p ^ n - 1) * ∑ q, ‖L i q‖ * ‖U q j‖ := by
  have h := elim_pdC hp hfl hps hpd hdv
  have hpiv : ∀ k, k ≤ n → FlC.prevPivot X k ≠ 0 := by
    intro k hk
    cases k with
    | zero => exact one_ne_zero
    | succ k =>
      have := h0 ⟨k, hk⟩
      have e : min k n = k := by omega
      simp only [FlC.prevPivot, e]
      exact this
  have hu := thirteen_lt hp
  refine ⟨FlC.runL X, FlC.runU X, ?_, ?_, ?_, ?_, ?_⟩
  · intro i; simp [FlC.runL]
  · intro i j hij
    simp only [FlC.runL, Matrix.of_apply]
    rw [if_neg (not_lt.2 hij.le), if_neg hij.ne']
  · intro i j hij
    simp only [FlC.runU, Matrix.of_apply]
    rw [if_neg (not_le.2 hij)]
  · rw [FlC.run_det hpiv]
    exact FlC.bareiss_run hX fun k hk => hpiv k hk.le
  · intro i j
    have := FlC.run_backward h hX hpiv hu (ρ := bareissGrowthC p) (growth_eq p) i j
    simpa only [norm_mul] using this

/-- Every matrix has a run. -/
private theorem exists_runC (dv : ℂ → ℂ → ℂ) (op : ℂ → ℂ → ℂ → ℂ → ℂ) (A : Fin (n + 1) → Fin (n + 1) → ℂ) : ∃ X, FlC.BareissRun dv op A X := by
  let step : ℕ → (Fin (n + 1) → Fin (n + 1) → ℂ) × ℂ → (Fin (n + 1) → Fin (n + 1) → ℂ) × ℂ := fun k s =>
    let κ : Fin (n + 1) := ⟨min k n, by omega⟩
    (fun i j => if κ < i ∧ κ < j then dv (op (s.1 i j) (s.1 κ κ) (s.1 i κ) (s.1 κ j)) s.2 else s.1 i j, s.1 κ κ)
  let S : ℕ → (Fin (n + 1) → Fin (n + 1) → ℂ) × ℂ := fun k => Nat.rec (A, 1) step k
  let X : ℕ → Fin (n + 1) → Fin (n + 1) → ℂ := fun k => (S k).1
  have hS : ∀ k, (S k).2 = FlC.prevPivot X k := by
    intro k
    cases k <;> rfl
  refine ⟨X, fun i j => rfl, fun k i j => ?_⟩
  have e : (⟨min k.val n, by omega⟩ : Fin (n + 1)) = k.castSucc := Fin.ext (by simp only [Fin.val_castSucc]; omega)
  change (step k.val (S k.val)).1 i j = _
  simp only [step, e, hS]
  rfl

private theorem columns_of_elim {p : ℕ} (hp : 8 ≤ p) {dv : ℂ → ℂ → ℂ} {op : ℂ → ℂ → ℂ → ℂ → ℂ} (h : FlC.Elim (13 * (2 : ℝ) ^ (-(p : ℤ))) dv op)
    (A : Matrix (Fin (n + 1)) (Fin (n + 1)) ℂ) {θ : ℝ} (hθ0 : 0 ≤ θ) (hθ : θ * bareissGrowthC p ^ n < 1) (h0 : ∀ j, A j j ≠ 0)
    (hd : ∀ j, (∑ i, if i = j then 0 else ‖A i j‖) ≤ θ * ‖A j j‖) :
    ∃ B : Matrix (Fin (n + 1)) (Fin (n + 1)) ℂ, Fl.bareissC dv op A = B.det ∧ ∀ j, ∑ i, ‖A i j - B i j‖ ≤
      (bareissGrowthC p ^ n - 1) * (2 * bareissGrowthC p ^ n / (1 - θ * bareissGrowthC p ^ n)) * ∑ i, ‖A i j‖ := by
  have hu := thirteen_lt hp
  obtain ⟨X, hX⟩ := exists_runC dv op fun i j => A i j
  have hX' : FlC.BareissRun dv op A X := hX
  obtain ⟨hpiv, hLU⟩ := FlC.dom_run h hX' hu (ρ := bareissGrowthC p) (growth_eq p) hθ0 hθ fun j => ⟨h0 j, hd j⟩
  refine ⟨FlC.runL X * FlC.runU X, ?_, fun j => ?_⟩
  · rw [FlC.run_det hpiv]
    exact FlC.bareiss_run hX' fun k hk => hpiv k hk.le
  · have hρ1 := (C153_growth hp).1
    have := Finset.sum_le_sum fun i (_ : i ∈ Finset.univ) => FlC.run_backward h hX' hpiv hu (ρ := bareissGrowthC p) (growth_eq p) i j
    rw [← Finset.mul_sum] at this
    refine this.trans ?_
    rw [mul_assoc]
    exact mul_le_mul_of_nonneg_left (hLU j) (by linarith [one_le_pow₀ hρ1 (n := n)])

/-- C153, partial: if every column is dominated by its diagonal element, the other elements having a sum of moduli of at most `θ` times that of the diagonal
element with `θ * ρ ^ n < 1`, then the computed determinant is the exact one of a matrix `B`, and every column of `B` is close to the one of the matrix.
Missing: matrices that are not dominated by their diagonal (see `C153_violated`). -/
theorem C153_columns_partial {p : ℕ} (hp : 8 ≤ p) {fl : ℝ → ℝ} (hfl : RoundsToNearest p fl) {ps pd : ℝ → ℝ → ℝ → ℝ → ℝ} (hps : Fl.IsProdSum fl ps)
    (hpd : Fl.IsProdDiff fl pd) {dv : ℂ → ℂ → ℂ} (hdv : AccurateDivC p dv) (A : Matrix (Fin (n + 1)) (Fin (n + 1)) ℂ) {θ : ℝ} (hθ0 : 0 ≤ θ)
    (hθ : θ * bareissGrowthC p ^ n < 1) (h0 : ∀ j, A j j ≠ 0) (hd : ∀ j, (∑ i, if i = j then 0 else ‖A i j‖) ≤ θ * ‖A j j‖) :
    ∃ B : Matrix (Fin (n + 1)) (Fin (n + 1)) ℂ, Fl.bareissC dv (Fl.pdC fl ps pd) A = B.det ∧ ∀ j, ∑ i, ‖A i j - B i j‖ ≤
      (bareissGrowthC p ^ n - 1) * (2 * bareissGrowthC p ^ n / (1 - θ * bareissGrowthC p ^ n)) * ∑ i, ‖A i j‖ :=
  columns_of_elim hp (elim_pdC hp hfl hps hpd hdv) A hθ0 hθ h0 hd

/-- C153, partial: the same for matrices whose rows are dominated by the diagonal. -/
theorem C153_rows_partial {p : ℕ} (hp : 8 ≤ p) {fl : ℝ → ℝ} (hfl : RoundsToNearest p fl) {ps pd : ℝ → ℝ → ℝ → ℝ → ℝ} (hps : Fl.IsProdSum fl ps)
    (hpd : Fl.IsProdDiff fl pd) {dv : ℂ → ℂ → ℂ} (hdv : AccurateDivC p dv) (A : Matrix (Fin (n + 1)) (Fin (n + 1)) ℂ) {θ : ℝ} (hθ0 : 0 ≤ θ)
    (hθ : θ * bareissGrowthC p ^ n < 1) (h0 : ∀ i, A i i ≠ 0) (hd : ∀ i, (∑ j, if j = i then 0 else ‖A i j‖) ≤ θ * ‖A i i‖) :
    ∃ B : Matrix (Fin (n + 1)) (Fin (n + 1)) ℂ, Fl.bareissC dv (Fl.pdC fl ps pd) A = B.det ∧ ∀ i, ∑ j, ‖A i j - B i j‖ ≤
      (bareissGrowthC p ^ n - 1) * (2 * bareissGrowthC p ^ n / (1 - θ * bareissGrowthC p ^ n)) * ∑ j, ‖A i j‖ := by
  have h := elim_pdC hp hfl hps hpd hdv
  have hu := thirteen_lt hp
  -- the run on the transpose
  obtain ⟨X, hX⟩ := exists_runC dv (Fl.pdC fl ps pd) fun i j => A i j
  have hX' : FlC.BareissRun dv (Fl.pdC fl ps pd) A X := hX
  let Y : ℕ → Fin (n + 1) → Fin (n + 1) → ℂ := fun k i j => X k j i
  have hY : ∀ k, FlC.prevPivot Y k = FlC.prevPivot X k := by intro k; cases k <;> rfl
  have h' : FlC.Elim (13 * (2 : ℝ) ^ (-(p : ℤ))) dv fun a b c d => Fl.pdC fl ps pd a b d c := by
    refine ⟨h.1, fun x q a b d hq hd => ?_⟩
    have := h.2 x q b a d hq hd
    rwa [show b / q * (a / d) = a / q * (b / d) by ring] at this
  have hYr : FlC.BareissRun dv (fun a b c d => Fl.pdC fl ps pd a b d c) A.transpose Y := by
    refine ⟨fun i j => hX.1 j i, fun k i j => ?_⟩
    rw [hY]
    change X (k.val + 1) j i = _
    rw [hX.2 k j i]
    by_cases hc : k.castSucc < i ∧ k.castSucc < j
    · rw [if_pos hc, if_pos ⟨hc.2, hc.1⟩]
    · rw [if_neg hc, if_neg fun h => hc ⟨h.2, h.1⟩]
  obtain ⟨hpiv, -⟩ := FlC.dom_run h' hYr hu (ρ := bareissGrowthC p) (growth_eq p) hθ0 hθ fun j => ⟨h0 j, hd j⟩
  obtain ⟨B, hB, hE⟩ := columns_of_elim hp h' A.transpose hθ0 hθ h0 hd
  refine ⟨B.transpose, ?_, fun i => hE i⟩
  rw [Matrix.det_transpose, ← hB, FlC.bareiss_run hX' fun k hk => by rw [← hY]; exact hpiv k hk.le,
    FlC.bareiss_run hYr fun k hk => hpiv k hk.le]

private theorem accuracy_of_backwardC {p : ℕ} (hp : 8 ≤ p) (A B : Matrix (Fin (n + 1)) (Fin (n + 1)) ℂ) {θ θ' : ℝ} (hθ0 : 0 ≤ θ)
    (hθ : θ * bareissGrowthC p ^ n < 1) (h0 : ∀ j, A j j ≠ 0) (hd : ∀ j, (∑ i, if i = j then 0 else ‖A i j‖) ≤ θ * ‖A j j‖) (hθ'0 : 0 ≤ θ') (hθ' : θ' < 1)
    (hθθ : θ + (bareissGrowthC p ^ n - 1) * (2 * bareissGrowthC p ^ n / (1 - θ * bareissGrowthC p ^ n)) * (1 + θ) ≤
      θ' * (1 - (bareissGrowthC p ^ n - 1) * (2 * bareissGrowthC p ^ n / (1 - θ * bareissGrowthC p ^ n)) * (1 + θ)))
    (hE : ∀ j, ∑ i, ‖A i j - B i j‖ ≤ (bareissGrowthC p ^ n - 1) * (2 * bareissGrowthC p ^ n / (1 - θ * bareissGrowthC p ^ n)) * ∑ i, ‖A i j‖) :
    ‖B.det - A.det‖ ≤
      ((1 + (bareissGrowthC p ^ n - 1) * (2 * bareissGrowthC p ^ n / (1 - θ * bareissGrowthC p ^ n)) * (1 + θ) / (1 - θ')) ^ (n + 1) - 1) * ‖A.det‖ := by
  have hρ1 := (C153_growth hp).1
  have hρn := one_le_pow₀ hρ1 (n := n)
  have hc : 0 ≤ (bareissGrowthC p ^ n - 1) * (2 * bareissGrowthC p ^ n / (1 - θ * bareissGrowthC p ^ n)) :=
    mul_nonneg (by linarith) (div_nonneg (by linarith) (by linarith))
  refine FlC.det_dom_perturb (mul_nonneg hc (by linarith)) h0 hd (fun j => (hE j).trans ?_) hθ'0 hθ' hθθ
  rw [mul_assoc (_ * _)]
  refine mul_le_mul_of_nonneg_left ?_ hc
  have : ∀ i, ‖A i j‖ = (if i = j then ‖A i j‖ else 0) + if i = j then 0 else ‖A i j‖ := by intro i; split <;> simp
  rw [Finset.sum_congr rfl fun i _ => this i, Finset.sum_add_distrib, Finset.sum_ite_eq' Finset.univ j fun i => ‖A i j‖, if_pos (Finset.mem_univ _)]
  linarith [hd j]

/-- C153, partial: the computed determinant of a matrix dominated by its diagonal, by columns or by rows, is accurate relative to the determinant. With
`η` the error of the columns (or rows) relative to the diagonal and `θ'` a bound of the dominance of all matrices that close, the error is
`(1 + η / (1 - θ')) ^ Dim - 1`. Missing: matrices that are not dominated by their diagonal (see `C153_violated`). -/
theorem C153_accuracy_partial {p : ℕ} (hp : 8 ≤ p) {fl : ℝ → ℝ} (hfl : RoundsToNearest p fl) {ps pd : ℝ → ℝ → ℝ → ℝ → ℝ} (hps : Fl.IsProdSum fl ps)
    (hpd : Fl.IsProdDiff fl pd) {dv : ℂ → ℂ → ℂ} (hdv : AccurateDivC p dv)
    (A : Matrix (Fin (n + 1)) (Fin (n + 1)) ℂ) {θ θ' : ℝ} (hθ0 : 0 ≤ θ) (hθ : θ * bareissGrowthC p ^ n < 1) (h0 : ∀ j, A j j ≠ 0)
    (hd : (∀ j, (∑ i, if i = j then 0 else ‖A i j‖) ≤ θ * ‖A j j‖) ∨ ∀ i, (∑ j, if j = i then 0 else ‖A i j‖) ≤ θ * ‖A i i‖) (hθ'0 : 0 ≤ θ') (hθ' : θ' < 1)
    (hθθ : θ + (bareissGrowthC p ^ n - 1) * (2 * bareissGrowthC p ^ n / (1 - θ * bareissGrowthC p ^ n)) * (1 + θ) ≤
      θ' * (1 - (bareissGrowthC p ^ n - 1) * (2 * bareissGrowthC p ^ n / (1 - θ * bareissGrowthC p ^ n)) * (1 + θ))) :
    ‖Fl.bareissC dv (Fl.pdC fl ps pd) A - A.det‖ ≤
      ((1 + (bareissGrowthC p ^ n - 1) * (2 * bareissGrowthC p ^ n / (1 - θ * bareissGrowthC p ^ n)) * (1 + θ) / (1 - θ')) ^ (n + 1) - 1) * ‖A.det‖ := by
  rcases hd with hd | hd
  · obtain ⟨B, hB, hE⟩ := C153_columns_partial hp hfl hps hpd hdv A hθ0 hθ h0 hd
    rw [hB]
    exact accuracy_of_backwardC hp A B hθ0 hθ h0 hd hθ'0 hθ' hθθ hE
  · obtain ⟨B, hB, hE⟩ := C153_rows_partial hp hfl hps hpd hdv A hθ0 hθ h0 hd
    have := accuracy_of_backwardC hp A.transpose B.transpose hθ0 hθ h0 hd hθ'0 hθ' hθθ hE
    rw [Matrix.det_transpose, Matrix.det_transpose] at this
    rw [hB]
    exact this

/-- C153, as stated, is violated: for every rounding to nearest, fused or not, every accurate division and every dimension from 5, a matrix of real numbers of
the format between 0 and 1 has a determinant of almost 2 and the computed determinant is 0. -/
theorem C153_violated {p : ℕ} (hp : 8 ≤ p) {fl : ℝ → ℝ} (hfl : RoundsToNearest p fl) {ps pd : ℝ → ℝ → ℝ → ℝ → ℝ} (hps : Fl.IsProdSum fl ps)
    (hpd : Fl.IsProdDiff fl pd) {dv : ℂ → ℂ → ℂ} (hdv : AccurateDivC p dv) (hn : 4 ≤ n) :
    ∃ A : Matrix (Fin (n + 1)) (Fin (n + 1)) ℝ, (∀ i j, IsFloat p (A i j) ∧ 0 ≤ A i j ∧ A i j ≤ 1) ∧
      (A.map fun x => (x : ℂ)).det = ((2 - (2 : ℝ) ^ (-(p : ℤ) - 2) : ℝ) : ℂ) ∧ Fl.bareissC dv (Fl.pdC fl ps pd) (A.map fun x => (x : ℂ)) = 0 := by
  have rs0 := round_sub_one (by omega) hfl
  set ε : ℝ := (2 : ℝ) ^ (-(p : ℤ) - 2) with hε
  have hε0 : 0 < ε := by positivity
  have hε1 : ε ≤ 1 := zpow_le_one_of_nonpos₀ (by norm_num) (by omega)
  have h2p : (1 : ℤ) < 2 ^ p := one_lt_pow₀ (by norm_num) (by omega)
  have fε : IsFloat p ε := ⟨1, -(p : ℤ) - 2, by simp [hε], by simpa using h2p⟩
  have f1 : IsFloat p 1 := ⟨1, 0, by simp, by simpa using h2p⟩
  have f0 : IsFloat p 0 := ⟨0, 0, by simp, by simp⟩
  have r1 := hfl.fixed f1
  have r0 := hfl.fixed f0
  have rε := hfl.fixed fε
  have rm : fl (-1) = -1 := by rw [hfl.odd, r1]
  set op := Fl.pdC fl ps pd with hop
  have hεc : (ε : ℂ) ≠ 0 := by exact_mod_cast hε0.ne'
  -- products
  have prod_re : ∀ x y : ℝ, fl (x * y) = x * y → Fl.prodC ps pd (x : ℂ) (y : ℂ) = ((x * y : ℝ) : ℂ) := by
    intro x y h
    have e1 : pd x y 0 0 = x * y := by
      rcases hpd x y 0 0 with e | e | e <;> rw [e] <;> simp [h, r0]
    have e2 : ps x 0 0 y = 0 := by
      rcases hps x 0 0 y with e | e | e <;> rw [e] <;> simp [r0]
    apply Complex.ext <;> simp [Fl.prodC, e1, e2]
  have zero_prod : ∀ z, Fl.prodC ps pd 0 z = 0 := by
    intro z
    have e1 : pd 0 z.re 0 z.im = 0 := by
      rcases hpd 0 z.re 0 z.im with e | e | e <;> rw [e] <;> simp [r0]
    have e2 : ps 0 z.im 0 z.re = 0 := by
      rcases hps 0 z.im 0 z.re with e | e | e <;> rw [e] <;> simp [r0]
    apply Complex.ext <;> simp [Fl.prodC, e1, e2]
  have prod_zero : ∀ z, Fl.prodC ps pd z 0 = 0 := by
    intro z
    have e1 : pd z.re 0 z.im 0 = 0 := by
      rcases hpd z.re 0 z.im 0 with e | e | e <;> rw [e] <;> simp [r0]
    have e2 : ps z.re 0 z.im 0 = 0 := by
      rcases hps z.re 0 z.im 0 with e | e | e <;> rw [e] <;> simp [r0]
    apply Complex.ext <;> simp [Fl.prodC, e1, e2]
  have fl0 : Fl.flC fl 0 = 0 := by apply Complex.ext <;> simp [Fl.flC, r0]
  have o1 : op 0 ε 1 1 = -1 := by
    have e := prod_re 1 1 (by simpa using r1)
    push_cast at e
    rw [hop, Fl.pdC, zero_prod, e]
    apply Complex.ext <;> simp [Fl.flC, rm, r0]
  have o2 : op 1 ε 1 1 = -1 := by
    have e := prod_re 1 1 (by simpa using r1)
    have e' := prod_re 1 ε (by simpa using rε)
    push_cast at e e'
    rw [hop, Fl.pdC, e, e']
    apply Complex.ext <;> simp [Fl.flC, rs0, r0]
  have o3 : ∀ x, op x x x x = 0 := by
    intro x
    rw [hop, Fl.pdC, sub_self, fl0]
  have o4 : ∀ y z, op 0 y 0 z = 0 := by
    intro y z
    rw [hop, Fl.pdC, zero_prod, zero_prod, sub_self, fl0]
  have o5 : ∀ y z, op 0 y z 0 = 0 := by
    intro y z
    rw [hop, Fl.pdC, zero_prod, prod_zero, sub_self, fl0]
  have o6 : ∀ y z, op y 0 0 z = 0 := by
    intro y z
    rw [hop, Fl.pdC, prod_zero, zero_prod, sub_self, fl0]
  -- quotients
  have d0 : ∀ b, b ≠ 0 → dv 0 b = 0 := by
    intro b hb
    have := (hdv 0 b hb).2
    simpa using this
  have dne : dv (-1) 1 ≠ 0 := by
    intro e
    have := (hdv (-1) 1 one_ne_zero).2
    rw [e] at this
    simp only [zero_sub, div_one, norm_neg, norm_one, mul_one] at this
    linarith [unit_le_c hp]
  set q := dv (-1) 1 with hq
  let A : Fin (n + 1) → Fin (n + 1) → ℂ := fun i j => ((smallPivot ε i j : ℝ) : ℂ)
  let X1 : Fin (n + 1) → Fin (n + 1) → ℂ := fun i j =>
    if i.val = 0 ∨ j.val = 0 then A i j else if i.val < 3 ∧ j.val < 3 then q else if i = j then dv (op 1 ε 0 0) 1 else 0
  let X2 : Fin (n + 1) → Fin (n + 1) → ℂ := fun i j =>
    if i.val ≤ 1 ∨ j.val ≤ 1 then X1 i j else if i = j ∧ i.val ≠ 2 then dv (op (dv (op 1 ε 0 0) 1) q 0 0) ε else 0
  let X3 : Fin (n + 1) → Fin (n + 1) → ℂ := fun i j => if i.val ≤ 2 ∨ j.val ≤ 2 then X2 i j else 0
  have A00 : ∀ i j : Fin (n + 1), i.val = 0 → j.val = 0 → A i j = ε := by
    intro i j hi hj
    simp only [A, smallPivot, Matrix.of_apply]
    rw [if_pos ⟨hi, hj⟩]
  have A1 : ∀ i j : Fin (n + 1), i.val < 3 → j.val < 3 → i.val ≠ j.val → A i j = 1 := by
    intro i j hi hj h
    simp only [A, smallPivot, Matrix.of_apply]
    rw [if_neg (by omega), if_pos ⟨hi, hj⟩, if_neg (fun e => h (congrArg Fin.val e)), Complex.ofReal_one]
  have A0 : ∀ i j : Fin (n + 1), i.val < 3 → j.val < 3 → i.val = j.val → i.val ≠ 0 → A i j = 0 := by
    intro i j hi hj h h0
    simp only [A, smallPivot, Matrix.of_apply]
    rw [if_neg (by omega), if_pos ⟨hi, hj⟩, if_pos (Fin.ext h), Complex.ofReal_zero]
  have Ad : ∀ i j : Fin (n + 1), 3 ≤ i.val → i.val = j.val → A i j = 1 := by
    intro i j hi h
    simp only [A, smallPivot, Matrix.of_apply]
    rw [if_neg (by omega), if_neg (by omega), if_pos (Fin.ext h), Complex.ofReal_one]
  have Ao : ∀ i j : Fin (n + 1), (3 ≤ i.val ∨ 3 ≤ j.val) → i.val ≠ j.val → A i j = 0 := by
    intro i j hi h
    simp only [A, smallPivot, Matrix.of_apply]
    rw [if_neg (by omega), if_neg (by omega), if_neg (fun e => h (congrArg Fin.val e)), Complex.ofReal_zero]
  let k0 : Fin (n + 1) := ⟨0, by omega⟩
  let k1 : Fin (n + 1) := ⟨1, by omega⟩
  let k2 : Fin (n + 1) := ⟨2, by omega⟩
  let k3 : Fin (n + 1) := ⟨3, by omega⟩
  have e1 : Fl.bareissElimC dv op k0 1 A = X1 := by
    funext i j
    rw [FlC.bareissElim_apply]
    by_cases h : i.val = 0 ∨ j.val = 0
    · simp only [X1]
      rw [if_pos h, if_neg (by simp only [Fin.lt_def, k0]; omega)]
    · rw [if_pos (by simp only [Fin.lt_def, k0]; omega)]
      simp only [X1]
      rw [if_neg h, A00 k0 k0 rfl rfl]
      by_cases h3 : i.val < 3 ∧ j.val < 3
      · rw [if_pos h3, A1 i k0 h3.1 (by simp [k0]) (by simp only [k0]; omega), A1 k0 j (by simp [k0]) h3.2 (by simp only [k0]; omega)]
        by_cases hij : i.val = j.val
        · rw [A0 i j h3.1 h3.2 hij (by omega), o1]
        · rw [A1 i j h3.1 h3.2 hij, o2]
      · rw [if_neg h3]
        by_cases hij : i.val = j.val
        · rw [if_pos (Fin.ext hij), Ad i j (by omega) hij, Ao i k0 (by omega) (by simp only [k0]; omega), Ao k0 j (by omega) (by simp only [k0]; omega)]
        · rw [if_neg (fun e => hij (congrArg Fin.val e)), Ao i j (by omega) hij]
          rcases Nat.lt_or_ge i.val 3 with hi | hi
          · rw [Ao k0 j (by omega) (by simp only [k0]; omega), o5, d0 _ one_ne_zero]
          · rw [Ao i k0 (by omega) (by simp only [k0]; omega), o4, d0 _ one_ne_zero]
  have B1 : ∀ i j : Fin (n + 1), i.val ≠ 0 → j.val ≠ 0 → i.val < 3 → j.val < 3 → X1 i j = q := by
    intro i j h1 h2 h3 h4
    simp only [X1]
    rw [if_neg (by omega), if_pos ⟨h3, h4⟩]
  have Bd : ∀ i j : Fin (n + 1), 3 ≤ i.val → i.val = j.val → X1 i j = dv (op 1 ε 0 0) 1 := by
    intro i j h1 h2
    simp only [X1]
    rw [if_neg (by omega), if_neg (by omega), if_pos (Fin.ext h2)]
  have Bo : ∀ i j : Fin (n + 1), i.val ≠ 0 → j.val ≠ 0 → (3 ≤ i.val ∨ 3 ≤ j.val) → i.val ≠ j.val → X1 i j = 0 := by
    intro i j h1 h2 h3 h4
    simp only [X1]
    rw [if_neg (by omega), if_neg (by omega), if_neg (fun e => h4 (congrArg Fin.val e))]
  have e2 : Fl.bareissElimC dv op k1 ε X1 = X2 := by
    funext i j
    rw [FlC.bareissElim_apply]
    by_cases h : i.val ≤ 1 ∨ j.val ≤ 1
    · simp only [X2]
      rw [if_pos h, if_neg (by simp only [Fin.lt_def, k1]; omega)]
    · rw [if_pos (by simp only [Fin.lt_def, k1]; omega)]
      simp only [X2]
      rw [if_neg h, B1 k1 k1 (by simp [k1]) (by simp [k1]) (by simp [k1]) (by simp [k1])]
      by_cases hij : i.val = j.val
      · by_cases hi2 : i.val = 2
        · rw [if_neg (by tauto), B1 i j (by omega) (by omega) (by omega) (by omega), B1 i k1 (by omega) (by simp [k1]) (by omega) (by simp [k1]),
            B1 k1 j (by simp [k1]) (by omega) (by simp [k1]) (by omega), o3, d0 _ hεc]
        · rw [if_pos ⟨Fin.ext hij, hi2⟩, Bd i j (by omega) hij, Bo i k1 (by omega) (by simp [k1]) (by omega) (by simp only [k1]; omega),
            Bo k1 j (by simp [k1]) (by omega) (by omega) (by simp only [k1]; omega)]
      · rw [if_neg (fun e => hij (congrArg Fin.val e.1)), Bo i j (by omega) (by omega) (by omega) hij]
        rcases Nat.lt_or_ge i.val 3 with hi | hi
        · rw [Bo k1 j (by simp [k1]) (by omega) (by omega) (by simp only [k1]; omega), o5, d0 _ hεc]
        · rw [Bo i k1 (by omega) (by simp [k1]) (by omega) (by simp only [k1]; omega), o4, d0 _ hεc]
  have C0 : ∀ i : Fin (n + 1), 2 ≤ i.val → X2 i k2 = 0 := by
    intro i hi
    simp only [X2]
    rw [if_neg (by simp only [k2]; omega), if_neg (by rintro ⟨e, h⟩; exact h (congrArg Fin.val e))]
  have e3 : Fl.bareissElimC dv op k2 q X2 = X3 := by
    funext i j
    rw [FlC.bareissElim_apply]
    by_cases h : i.val ≤ 2 ∨ j.val ≤ 2
    · simp only [X3]
      rw [if_pos h, if_neg (by simp only [Fin.lt_def, k2]; omega)]
    · rw [if_pos (by simp only [Fin.lt_def, k2]; omega)]
      simp only [X3]
      rw [if_neg h, C0 k2 le_rfl, C0 i (by omega), o6, d0 _ dne]
  have D0 : ∀ i : Fin (n + 1), 2 ≤ i.val → X3 i k2 = 0 := by
    intro i hi
    simp only [X3]
    rw [if_pos (by simp [k2]), C0 i hi]
  have s0 : Fl.bareissStepC dv op k0 (some ⟨A, false⟩) = some ⟨X1, false⟩ := by
    simp only [Fl.bareissStepC, Option.bind_some, k0, dif_pos]
    rw [← e1]
  have s1 : Fl.bareissStepC dv op k1 (some ⟨X1, false⟩) = some ⟨X2, false⟩ := by
    have hm : X1 k0 k0 = ε := by
      simp only [X1]
      rw [if_pos (Or.inl rfl), A00 k0 k0 rfl rfl]
    simp only [Fl.bareissStepC, Option.bind_some, k1, one_ne_zero, dif_neg, not_false_eq_true]
    classical
    change (let q := forUp (n + 1) 1 (bareissPivotStep k0) ((⟨X1, false⟩ : Bareiss ℂ (n + 1)), X1 k0 k0)
      if q.2 = 0 then none else some (⟨Fl.bareissElimC dv op k1 q.2 q.1.inPlace, q.1.flipSign⟩ : Bareiss ℂ (n + 1))) = _
    rw [hm, bareissPivot_nonzero _ _ _ _ hεc]
    simp only [hεc, if_false]
    rw [e2]
  have s2 : Fl.bareissStepC dv op k2 (some ⟨X2, false⟩) = some ⟨X3, false⟩ := by
    have hm : X2 k1 k1 = q := by
      simp only [X2]
      rw [if_pos (Or.inl le_rfl), B1 k1 k1 (by simp [k1]) (by simp [k1]) (by simp [k1]) (by simp [k1])]
    simp only [Fl.bareissStepC, Option.bind_some, k2, OfNat.ofNat_ne_zero, dif_neg, not_false_eq_true]
    classical
    change (let q := forUp (n + 1) 2 (bareissPivotStep k1) ((⟨X2, false⟩ : Bareiss ℂ (n + 1)), X2 k1 k1)
      if q.2 = 0 then none else some (⟨Fl.bareissElimC dv op k2 q.2 q.1.inPlace, q.1.flipSign⟩ : Bareiss ℂ (n + 1))) = _
    rw [hm, bareissPivot_nonzero _ _ _ _ dne]
    simp only [dne, if_false]
    rw [e3]
  have s3 : Fl.bareissStepC dv op k3 (some ⟨X3, false⟩) = none := by
    simp only [Fl.bareissStepC, Option.bind_some, k3, OfNat.ofNat_ne_zero, dif_neg, not_false_eq_true]
    classical
    change (let q := forUp (n + 1) 3 (bareissPivotStep k2) ((⟨X3, false⟩ : Bareiss ℂ (n + 1)), X3 k2 k2)
      if q.2 = 0 then none else some (⟨Fl.bareissElimC dv op k3 q.2 q.1.inPlace, q.1.flipSign⟩ : Bareiss ℂ (n + 1))) = _
    have := forUp_inv (n := n + 1) (lo := 3) (body := bareissPivotStep k2) (s := ((⟨X3, false⟩ : Bareiss ℂ (n + 1)), X3 k2 k2))
      (fun _ s => s = (⟨X3, false⟩, 0)) (by omega) (by rw [D0 k2 le_rfl]) (by
        rintro i s hi rfl
        simp [bareissPivotStep, D0 i (by omega)])
    rw [this]
    simp
  refine ⟨smallPivot ε, ?_, ?_, ?_⟩
  · intro i j
    simp only [smallPivot, Matrix.of_apply]
    split_ifs
    · exact ⟨fε, hε0.le, hε1⟩
    · exact ⟨f0, le_rfl, zero_le_one⟩
    · exact ⟨f1, zero_le_one, le_rfl⟩
    · exact ⟨f1, zero_le_one, le_rfl⟩
    · exact ⟨f0, le_rfl, zero_le_one⟩
  · rw [← smallPivot_det hn ε]
    exact (RingHom.map_det Complex.ofRealHom (smallPivot ε)).symm
  · have hn0 : 0 < n := by omega
    have hn1 : 0 + 1 < n := by omega
    have hn2 : 0 + 1 + 1 < n := by omega
    have hn3 : 0 + 1 + 1 + 1 < n := by omega
    have hrun : forUp n 0 (fun k => Fl.bareissStepC dv op k.castSucc) (some (⟨A, false⟩ : Bareiss ℂ (n + 1))) = none := by
      rw [forUp_step hn0, forUp_step hn1, forUp_step hn2, forUp_step hn3]
      rw [show Fl.bareissStepC dv op (Fin.castSucc ⟨0, hn0⟩) (some (⟨A, false⟩ : Bareiss ℂ (n + 1))) = _ from s0,
        show Fl.bareissStepC dv op (Fin.castSucc ⟨0 + 1, hn1⟩) (some (⟨X1, false⟩ : Bareiss ℂ (n + 1))) = _ from s1,
        show Fl.bareissStepC dv op (Fin.castSucc ⟨0 + 1 + 1, hn2⟩) (some (⟨X2, false⟩ : Bareiss ℂ (n + 1))) = _ from s2,
        show Fl.bareissStepC dv op (Fin.castSucc ⟨0 + 1 + 1 + 1, hn3⟩) (some (⟨X3, false⟩ : Bareiss ℂ (n + 1))) = _ from s3]
      exact forUp_inv (n := n) (lo := 0 + 1 + 1 + 1 + 1) (body := fun k => Fl.bareissStepC dv op k.castSucc) (s := none) (fun _ s => s = none) (by omega) rfl
        (by rintro i s _ rfl; rfl)
    change (match forUp n 0 (fun k => Fl.bareissStepC dv op k.castSucc) (some (⟨A, false⟩ : Bareiss ℂ (n + 1))) with
      | none => (0 : ℂ)
      | some b => if b.flipSign then -b.inPlace (Fin.last n) (Fin.last n) else b.inPlace (Fin.last n) (Fin.last n)) = 0
    rw [hrun]

/-! ## Examples -/

/-- A matrix of dimension 5 that is dominated by its diagonal, in single precision with the textbook division. -/
example : ∃ B : Matrix (Fin 5) (Fin 5) ℂ,
    Fl.bareissC (n := 4) (Fl.divC (flAway 24) (fun a b c d => flAway 24 (a * b + flAway 24 (c * d))) fun a b c d => flAway 24 (a * b - flAway 24 (c * d)))
      (Fl.pdC (flAway 24) (fun a b c d => flAway 24 (a * b + flAway 24 (c * d))) fun a b c d => flAway 24 (a * b - flAway 24 (c * d)))
      (Matrix.of fun i j : Fin 5 => if i = j then 3 * Complex.I else 1 / 4) = B.det ∧
      ∀ j, ∑ i, ‖(if i = j then 3 * Complex.I else 1 / 4) - B i j‖ ≤
        (bareissGrowthC 24 ^ 4 - 1) * (2 * bareissGrowthC 24 ^ 4 / (1 - 1 / 3 * bareissGrowthC 24 ^ 4)) * ∑ i : Fin 5, ‖if i = j then 3 * Complex.I else 1 / 4‖ := by
  obtain ⟨g1, g2⟩ := C153_growth (p := 24) (by norm_num)
  have hg : bareissGrowthC 24 ≤ 1 + 1 / 1000 := g2.trans (by norm_num)
  refine C153_columns_partial (n := 4) (by norm_num) (flAway_roundsToNearest (by norm_num)) (fun _ _ _ _ => Or.inr (Or.inl rfl)) (fun _ _ _ _ => Or.inr (Or.inl rfl))
    (C146_division (by norm_num) (flAway_roundsToNearest (by norm_num)) (fun _ _ _ _ => Or.inr (Or.inl rfl)) (fun _ _ _ _ => Or.inr (Or.inl rfl))) _ (by norm_num) ?_ ?_ ?_
  · have := pow_le_pow_left₀ (by linarith) hg 4
    norm_num at this ⊢
    linarith
  · intro j
    simp
  · intro j
    simp only [Matrix.of_apply, if_true]
    have : ∀ i : Fin 5, (if i = j then (0 : ℝ) else ‖if i = j then 3 * Complex.I else 1 / 4‖) = 1 / 4 - if i = j then 1 / 4 else 0 := by
      intro i
      by_cases h : i = j
      · simp [h]
      · simp [h]
    rw [Finset.sum_congr rfl fun i _ => this i, Finset.sum_sub_distrib, Finset.sum_ite_eq' Finset.univ j]
    norm_num

/-- In single precision, the determinant of every complex matrix of dimension 5 whose columns are dominated by the diagonal with `θ = 1 / 3` has an error of at
most one thousandth. -/
example (A : Matrix (Fin 5) (Fin 5) ℂ) (h0 : ∀ j, A j j ≠ 0) (hd : ∀ j, (∑ i, if i = j then 0 else ‖A i j‖) ≤ 1 / 3 * ‖A j j‖) :
    ‖Fl.bareissC (n := 4) (Fl.divC (flAway 24) (fun a b c d => flAway 24 (a * b + flAway 24 (c * d))) fun a b c d => flAway 24 (a * b - flAway 24 (c * d)))
      (Fl.pdC (flAway 24) (fun a b c d => flAway 24 (a * b + flAway 24 (c * d))) fun a b c d => flAway 24 (a * b - flAway 24 (c * d))) A - A.det‖ ≤
      1 / 1000 * ‖A.det‖ := by
  obtain ⟨g1, g2⟩ := C153_growth (p := 24) (by norm_num)
  have hg : bareissGrowthC 24 ≤ 1 + 2 / 1000000 := g2.trans (by norm_num)
  have hg4 := pow_le_pow_left₀ (by linarith) hg 4
  have h14 := one_le_pow₀ g1 (n := 4)
  set R := bareissGrowthC 24 ^ 4 with hR
  have hR5 : R ≤ 1 + 9 / 1000000 := hg4.trans (by norm_num)
  have hc : (R - 1) * (2 * R / (1 - 1 / 3 * R)) * (1 + 1 / 3) ≤ 9 / 1000000 * (2 * (1 + 9 / 1000000) / (1 - 1 / 3 * (1 + 9 / 1000000))) * (1 + 1 / 3) := by
    have h1 : 2 * R / (1 - 1 / 3 * R) ≤ 2 * (1 + 9 / 1000000) / (1 - 1 / 3 * (1 + 9 / 1000000)) :=
      div_le_div₀ (by norm_num) (by linarith) (by norm_num) (by linarith)
    have h2 : 0 ≤ 2 * R / (1 - 1 / 3 * R) := div_nonneg (by linarith) (by linarith)
    exact mul_le_mul_of_nonneg_right (mul_le_mul (by linarith) h1 h2 (by norm_num)) (by norm_num)
  have hc0 : 0 ≤ (R - 1) * (2 * R / (1 - 1 / 3 * R)) * (1 + 1 / 3) :=
    mul_nonneg (mul_nonneg (by linarith) (div_nonneg (by linarith) (by linarith))) (by norm_num)
  set η := (R - 1) * (2 * R / (1 - 1 / 3 * R)) * (1 + 1 / 3) with hη
  have hη' : η ≤ 4 / 100000 := hc.trans (by norm_num)
  have := C153_accuracy_partial (n := 4) (p := 24) (θ := 1 / 3) (θ' := 1 / 2) (by norm_num) (flAway_roundsToNearest (by norm_num))
    (fun _ _ _ _ => Or.inr (Or.inl rfl)) (fun _ _ _ _ => Or.inr (Or.inl rfl))
    (C146_division (by norm_num) (flAway_roundsToNearest (by norm_num)) (fun _ _ _ _ => Or.inr (Or.inl rfl)) (fun _ _ _ _ => Or.inr (Or.inl rfl)))
    A (by norm_num) (by rw [← hR]; linarith) h0 (Or.inl hd) (by norm_num) (by norm_num) (by rw [← hR, ← hη]; linarith)
  rw [← hR, ← hη] at this
  refine this.trans (mul_le_mul_of_nonneg_right ?_ (norm_nonneg _))
  have h5 := pow_le_pow_left₀ (by positivity) (show 1 + η / (1 - 1 / 2) ≤ 1 + 8 / 100000 by rw [div_eq_mul_inv]; norm_num; linarith) 5
  refine (sub_le_sub_right h5 1).trans ?_
  norm_num

end Mathter.Props
