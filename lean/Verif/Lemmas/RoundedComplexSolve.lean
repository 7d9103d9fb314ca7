import Verif.Lemmas.RoundedSolve
import Verif.Model.RoundedComplexLinear
import Mathlib.Analysis.Complex.Norm

/-! # Lemmas about rounded elimination steps, triangular solvers and LU decompositions of complex matrices -/

namespace Mathter.Fl
variable {n m : ℕ}

/-- What the proofs use of complex arithmetic. `rep`: the number is representable. -/
structure ArithC (u : ℝ) (rep : ℂ → Prop) (dv : ℂ → ℂ → ℂ) (op : ℂ → ℂ → ℂ → ℂ) : Prop where
  u_nonneg : 0 ≤ u
  step : ∀ a b d, ∃ q, ‖q - b * d‖ ≤ u * ‖b * d‖ ∧ ‖op a b d - (a - q)‖ ≤ u * ‖a - q‖
  div : ∀ a d, d ≠ 0 → ‖dv a d - a / d‖ ≤ u * ‖a / d‖
  zero_right : ∀ a b, rep a → op a b 0 = a
  zero_left : ∀ a b, rep a → op a 0 b = a
  rep_op : ∀ a b d, rep (op a b d)
  rep_dv : ∀ a d, d ≠ 0 → rep (dv a d)
  rep_zero : rep 0
  rep_one : rep 1

theorem ArithC.dv_zero {u : ℝ} {rep : ℂ → Prop} {dv : ℂ → ℂ → ℂ} {op : ℂ → ℂ → ℂ → ℂ} (h : ArithC u rep dv op) {d : ℂ} (hd : d ≠ 0) : dv 0 d = 0 := by
  have := h.div 0 d hd
  rw [zero_div, sub_zero, norm_zero, mul_zero] at this
  exact norm_le_zero_iff.1 this

private theorem step_arith {u G S : ℝ} {U p q w : ℂ} (h0 : 0 ≤ u) (h1 : u < 1) (hG : 0 ≤ G) (hS : 0 ≤ S) (hq : ‖q - p‖ ≤ u * ‖p‖) (hw : ‖w - (U - q)‖ ≤ u * ‖U - q‖) :
    G * (S + ‖U‖) + ‖U - p - w‖ ≤ ((G + 1) / (1 - u) - 1) * (S + ‖p‖ + ‖w‖) := by
  have hd : 0 < 1 - u := by linarith
  -- `‖U - q‖ ≤ ‖w‖ / (1 - u)`
  have a1 : (1 - u) * ‖U - q‖ ≤ ‖w‖ := by
    have := norm_sub_norm_le (U - q) w
    rw [norm_sub_rev (U - q) w] at this
    linarith
  have a2 : ‖U - q‖ ≤ ‖w‖ / (1 - u) := by rw [le_div_iff₀ hd]; linarith
  have a3 : ‖q‖ ≤ (1 + u) * ‖p‖ := by
    have := norm_sub_norm_le q p
    linarith
  have a4 : ‖U‖ ≤ ‖U - q‖ + ‖q‖ := by simpa using norm_add_le (U - q) q
  have a5 : ‖U - p - w‖ ≤ u * ‖U - q‖ + u * ‖p‖ := by
    have := norm_add_le (U - q - w) (q - p)
    rw [norm_sub_rev (U - q) w] at this
    have e : U - q - w + (q - p) = U - p - w := by ring
    rw [e] at this
    linarith
  have hp := norm_nonneg p
  have hw0 := norm_nonneg w
  have k1 : 1 + u ≤ 1 / (1 - u) := by rw [le_div_iff₀ hd]; nlinarith
  have k2 : 1 ≤ 1 / (1 - u) := by linarith
  have e1 : (G + 1) / (1 - u) = (G + 1) * (1 / (1 - u)) := by rw [mul_one_div]
  rw [e1]
  rw [div_eq_mul_one_div] at a2
  set Q := 1 / (1 - u)
  have hQ : Q * (1 - u) = 1 := by simp only [Q]; field_simp
  have b1 : G * ‖U‖ ≤ G * (‖w‖ * Q + (1 + u) * ‖p‖) := mul_le_mul_of_nonneg_left (by linarith) hG
  have b2 : u * ‖U - q‖ ≤ u * (‖w‖ * Q) := mul_le_mul_of_nonneg_left a2 h0
  have b3 : (G + 1) * (1 + u) * ‖p‖ ≤ (G + 1) * Q * ‖p‖ := mul_le_mul_of_nonneg_right (mul_le_mul_of_nonneg_left k1 (by linarith)) hp
  have b4 : (G + 1) * S ≤ (G + 1) * Q * S := mul_le_mul_of_nonneg_right (by nlinarith) hS
  have b5 : u * (‖w‖ * Q) = ‖w‖ * Q - ‖w‖ := by linear_combination (-‖w‖) * hQ
  nlinarith

/-- One subtraction of a product. -/
theorem step_boundC {u : ℝ} {rep : ℂ → Prop} {dv : ℂ → ℂ → ℂ} {op : ℂ → ℂ → ℂ → ℂ} (h : ArithC u rep dv op) (h1 : u < 1) {G S : ℝ} (hG : 0 ≤ G) (hS : 0 ≤ S) (U a b : ℂ) :
    G * (S + ‖U‖) + ‖U - a * b - op U a b‖ ≤ ((G + 1) / (1 - u) - 1) * (S + ‖a * b‖ + ‖op U a b‖) := by
  obtain ⟨q, hq, hw⟩ := h.step U a b
  exact step_arith h.u_nonneg h1 hG hS hq hw

/-- One division. -/
theorem div_boundC {u : ℝ} {rep : ℂ → Prop} {dv : ℂ → ℂ → ℂ} {op : ℂ → ℂ → ℂ → ℂ} (h : ArithC u rep dv op) (h1 : u < 1) {G S : ℝ} (hG : 0 ≤ G) (hS : 0 ≤ S) (U : ℂ) {d : ℂ} (hd : d ≠ 0) :
    G * (S + ‖U‖) + ‖U - d * dv U d‖ ≤ ((G + 1) / (1 - u) - 1) * (S + ‖d * dv U d‖) := by
  have e := h.div U d hd
  have e2 : ‖d * dv U d - U‖ ≤ u * ‖U‖ := by
    have e3 : d * dv U d - U = d * (dv U d - U / d) := by field_simp
    have e4 : ‖U‖ = ‖d‖ * ‖U / d‖ := by rw [← norm_mul]; congr 1; field_simp
    rw [e3, norm_mul, e4]
    have := mul_le_mul_of_nonneg_left e (norm_nonneg d)
    linarith
  have := step_arith (p := 0) (q := 0) (w := d * dv U d) h.u_nonneg h1 hG hS (by simp) (by simpa using e2)
  simpa using this

/-! ## Triangular solvers -/

theorem elimDownC_eq (op : ℂ → ℂ → ℂ → ℂ) (row : Fin n) (ra : Fin n → ℂ) (rb : Fin m → ℂ) (s : Matrix (Fin n) (Fin n) ℂ × Matrix (Fin n) (Fin m) ℂ) :
    forDown row.val (fun t => elimTargetC op row ⟨t.val, by omega⟩ ra rb) s
      = (Matrix.of fun i j => if i < row then op (s.1 i j) (s.1 i row) (ra j) else s.1 i j,
         Matrix.of fun i j => if i < row then op (s.2 i j) (s.1 i row) (rb j) else s.2 i j) := by
  have := forDown_inv (n := row.val) (body := fun t => elimTargetC op row ⟨t.val, by omega⟩ ra rb) (s := s)
    (fun k s' => s' = (Matrix.of fun i j => if k ≤ i.val ∧ i < row then op (s.1 i j) (s.1 i row) (ra j) else s.1 i j,
         Matrix.of fun i j => if k ≤ i.val ∧ i < row then op (s.2 i j) (s.1 i row) (rb j) else s.2 i j)) ?_ ?_
  · rw [this]; simp
  · ext i j
    · simp only [Matrix.of_apply]; rw [if_neg (by omega)]
    · simp only [Matrix.of_apply]; rw [if_neg (by omega)]
  · rintro t _ rfl
    unfold elimTargetC
    ext i j
    · simp only [Matrix.updateRow_apply, Matrix.of_apply]
      by_cases h : i = ⟨t.val, by omega⟩
      · subst h; simp [Fin.lt_def]
      · have : t.val ≠ i.val := fun h' => h (Fin.ext h'.symm)
        rw [if_neg h]
        by_cases h2 : t.val ≤ i.val ∧ i < row
        · rw [if_pos h2, if_pos ⟨by omega, h2.2⟩]
        · rw [if_neg h2, if_neg (by omega)]
    · simp only [Matrix.updateRow_apply, Matrix.of_apply]
      by_cases h : i = ⟨t.val, by omega⟩
      · subst h; simp [Fin.lt_def]
      · have : t.val ≠ i.val := fun h' => h (Fin.ext h'.symm)
        rw [if_neg h]
        by_cases h2 : t.val ≤ i.val ∧ i < row
        · rw [if_pos h2, if_pos ⟨by omega, h2.2⟩]
        · rw [if_neg h2, if_neg (by omega)]

theorem elimUpC_eq (op : ℂ → ℂ → ℂ → ℂ) (row : Fin n) (ra : Fin n → ℂ) (rb : Fin m → ℂ) (s : Matrix (Fin n) (Fin n) ℂ × Matrix (Fin n) (Fin m) ℂ) :
    forUp n (row.val + 1) (fun t => elimTargetC op row t ra rb) s
      = (Matrix.of fun i j => if row < i then op (s.1 i j) (s.1 i row) (ra j) else s.1 i j,
         Matrix.of fun i j => if row < i then op (s.2 i j) (s.1 i row) (rb j) else s.2 i j) := by
  have := forUp_inv (n := n) (lo := row.val + 1) (body := fun t => elimTargetC op row t ra rb) (s := s)
    (fun k s' => s' = (Matrix.of fun i j => if i.val < k ∧ row < i then op (s.1 i j) (s.1 i row) (ra j) else s.1 i j,
         Matrix.of fun i j => if i.val < k ∧ row < i then op (s.2 i j) (s.1 i row) (rb j) else s.2 i j)) (by omega) ?_ ?_
  · rw [this]; simp
  · ext i j
    · simp only [Matrix.of_apply]; rw [if_neg (by omega)]
    · simp only [Matrix.of_apply]; rw [if_neg (by omega)]
  · rintro t _ ht rfl
    unfold elimTargetC
    have ht' : row < t := ht
    ext i j
    · simp only [Matrix.updateRow_apply, Matrix.of_apply]
      by_cases h : i = t
      · subst h; simp [ht']
      · have : t.val ≠ i.val := fun h' => h (Fin.ext h'.symm)
        rw [if_neg h]
        by_cases h2 : i.val < t.val ∧ row < i
        · rw [if_pos h2, if_pos ⟨by omega, h2.2⟩]
        · rw [if_neg h2, if_neg (by omega)]
    · simp only [Matrix.updateRow_apply, Matrix.of_apply]
      by_cases h : i = t
      · subst h; simp [ht']
      · have : t.val ≠ i.val := fun h' => h (Fin.ext h'.symm)
        rw [if_neg h]
        by_cases h2 : i.val < t.val ∧ row < i
        · rw [if_pos h2, if_pos ⟨by omega, h2.2⟩]
        · rw [if_neg h2, if_neg (by omega)]

theorem solveUpperStepC_eq (dv : ℂ → ℂ → ℂ) (op : ℂ → ℂ → ℂ → ℂ) (row : Fin n) (A : Matrix (Fin n) (Fin n) ℂ) (b : Matrix (Fin n) (Fin m) ℂ)
    (hl : A row row ≠ 0) :
    solveUpperStepC dv op row (A, b) = some
      (Matrix.of fun i j => if i = row then dv (A row j) (A row row) else if i < row then op (A i j) (A i row) (dv (A row j) (A row row)) else A i j,
       Matrix.of fun i j => if i = row then dv (b row j) (A row row) else if i < row then op (b i j) (A i row) (dv (b row j) (A row row)) else b i j) := by
  unfold solveUpperStepC
  simp only [hl, if_false]
  rw [elimDownC_eq]
  congr 2
  · ext i j
    simp only [Matrix.of_apply, Matrix.updateRow_apply]
    by_cases h : i = row <;> simp [h]
  · ext i j
    simp only [Matrix.of_apply, Matrix.updateRow_apply]
    by_cases h : i = row <;> simp [h]

theorem solveLowerStepC_eq (dv : ℂ → ℂ → ℂ) (op : ℂ → ℂ → ℂ → ℂ) (row : Fin n) (A : Matrix (Fin n) (Fin n) ℂ) (b : Matrix (Fin n) (Fin m) ℂ)
    (hl : A row row ≠ 0) :
    solveLowerStepC dv op row (A, b) = some
      (Matrix.of fun i j => if i = row then dv (A row j) (A row row) else if row < i then op (A i j) (A i row) (dv (A row j) (A row row)) else A i j,
       Matrix.of fun i j => if i = row then dv (b row j) (A row row) else if row < i then op (b i j) (A i row) (dv (b row j) (A row row)) else b i j) := by
  unfold solveLowerStepC
  simp only [hl, if_false]
  rw [elimUpC_eq]
  congr 2
  · ext i j
    simp only [Matrix.of_apply, Matrix.updateRow_apply]
    by_cases h : i = row <;> simp [h]
  · ext i j
    simp only [Matrix.of_apply, Matrix.updateRow_apply]
    by_cases h : i = row <;> simp [h]

/-- State after `t` rows, the rows of `F`, have been solved for. -/
structure TriInvC (u : ℝ) (A : Matrix (Fin n) (Fin n) ℂ) (b : Matrix (Fin n) (Fin m) ℂ) (F : Finset (Fin n)) (t : ℕ) (A' : Matrix (Fin n) (Fin n) ℂ)
    (b' : Matrix (Fin n) (Fin m) ℂ) : Prop where
  same : ∀ i j, i ∉ F → j ∉ F → A' i j = A i j
  done : ∀ i j, i ∈ F → ‖b i j - ∑ q ∈ F, A i q * b' q j‖ ≤ ((1 / (1 - u)) ^ t - 1) * ∑ q ∈ F, ‖A i q * b' q j‖
  rest : ∀ i j, i ∉ F → ‖b i j - ∑ q ∈ F, A i q * b' q j - b' i j‖ ≤ ((1 / (1 - u)) ^ t - 1) * ((∑ q ∈ F, ‖A i q * b' q j‖) + ‖b' i j‖)

theorem TriInvC.init (u : ℝ) (A : Matrix (Fin n) (Fin n) ℂ) (b : Matrix (Fin n) (Fin m) ℂ) : TriInvC u A b ∅ 0 A b :=
  ⟨fun _ _ _ _ => rfl, fun _ _ h => absurd h (Finset.notMem_empty _), fun i j _ => by simp⟩

theorem TriInvC.step {dv : ℂ → ℂ → ℂ} {u : ℝ} {rep : ℂ → Prop} {op : ℂ → ℂ → ℂ → ℂ} (h : ArithC u rep dv op) (h1 : u < 1)
    {A : Matrix (Fin n) (Fin n) ℂ} {b : Matrix (Fin n) (Fin m) ℂ} (hA : ∀ i j, rep (A i j)) {F : Finset (Fin n)} {t : ℕ}
    {A' : Matrix (Fin n) (Fin n) ℂ} {b' : Matrix (Fin n) (Fin m) ℂ} (inv : TriInvC u A b F t A' b') {row : Fin n} (hrow : row ∉ F)
    (hz : ∀ j, j ∉ F → j ≠ row → A row j = 0) (hd : A row row ≠ 0) (hfin : ∀ i ∈ F, A i row = 0)
    {A2 : Matrix (Fin n) (Fin n) ℂ} {b2 : Matrix (Fin n) (Fin m) ℂ}
    (hA2 : ∀ i j, i ∉ F → i ≠ row → A2 i j = op (A' i j) (A' i row) (dv (A' row j) (A' row row)))
    (hb2 : ∀ i j, b2 i j = if i = row then dv (b' row j) (A' row row) else if i ∈ F then b' i j else op (b' i j) (A' i row) (dv (b' row j) (A' row row))) :
    TriInvC u A b (insert row F) (t + 1) A2 b2 := by
  have hrr : A' row row = A row row := inv.same row row hrow hrow
  have hn : ∀ j, j ∉ F → j ≠ row → dv (A' row j) (A' row row) = 0 := fun j hF hj => by
    rw [inv.same row j hrow hF, hz j hF hj, h.dv_zero (by rw [hrr]; exact hd)]
  have hsame : ∀ i, i ∈ F → ∀ j, b2 i j = b' i j := fun i hi j => by
    rw [hb2, if_neg (fun e : i = row => hrow (e ▸ hi)), if_pos hi]
  have hsum : ∀ (i : Fin n) (j : Fin m), ∑ q ∈ insert row F, A i q * b2 q j = A i row * b2 row j + ∑ q ∈ F, A i q * b' q j := fun i j => by
    rw [Finset.sum_insert hrow]
    congr 1
    exact Finset.sum_congr rfl fun q hq => by rw [hsame q hq]
  have hasum : ∀ (i : Fin n) (j : Fin m), ∑ q ∈ insert row F, ‖A i q * b2 q j‖ = ‖A i row * b2 row j‖ + ∑ q ∈ F, ‖A i q * b' q j‖ := fun i j => by
    rw [Finset.sum_insert hrow]
    congr 1
    exact Finset.sum_congr rfl fun q hq => by rw [hsame q hq]
  have hS : ∀ (i : Fin n) (j : Fin m), 0 ≤ ∑ q ∈ F, ‖A i q * b' q j‖ := fun i j => Finset.sum_nonneg fun _ _ => norm_nonneg _
  have hG := growth_nonneg h.u_nonneg h1 t
  refine ⟨fun i j hi hj => ?_, fun i j hi => ?_, fun i j hi => ?_⟩
  · rw [Finset.mem_insert, not_or] at hi hj
    rw [hA2 i j hi.2 hi.1, hn j hj.2 hj.1, h.zero_right _ _ (by rw [inv.same i j hi.2 hj.2]; exact hA i j)]
    exact inv.same i j hi.2 hj.2
  · rw [hsum, hasum]
    by_cases hir : i = row
    · subst hir
      have e := inv.rest i j hrow
      have hb : b2 i j = dv (b' i j) (A i i) := by rw [hb2, if_pos rfl, hrr]
      have d := div_boundC h h1 hG (hS i j) (b' i j) hd
      rw [← growth_succ, ← hb] at d
      have tri := norm_add_le (b i j - ∑ q ∈ F, A i q * b' q j - b' i j) (b' i j - A i i * b2 i j)
      have e2 : b i j - ∑ q ∈ F, A i q * b' q j - b' i j + (b' i j - A i i * b2 i j) = b i j - (A i i * b2 i j + ∑ q ∈ F, A i q * b' q j) := by ring
      rw [e2] at tri
      linarith
    · have hiF := (Finset.mem_insert.1 hi).resolve_left hir
      rw [hfin i hiF]
      simp only [zero_mul, norm_zero, zero_add]
      exact (inv.done i j hiF).trans (mul_le_mul_of_nonneg_right (growth_mono h.u_nonneg h1 (Nat.le_succ t)) (hS i j))
  · rw [Finset.mem_insert, not_or] at hi
    rw [hsum, hasum]
    have e := inv.rest i j hi.2
    have hbr : b2 row j = dv (b' row j) (A' row row) := by rw [hb2, if_pos rfl]
    have hb : b2 i j = op (b' i j) (A i row) (b2 row j) := by
      rw [hb2 i j, if_neg hi.1, if_neg hi.2, hbr, inv.same i row hi.2 hrow]
    have d := step_boundC h h1 hG (hS i j) (b' i j) (A i row) (b2 row j)
    rw [← growth_succ, ← hb] at d
    have tri := norm_add_le (b i j - ∑ q ∈ F, A i q * b' q j - b' i j) (b' i j - A i row * b2 row j - b2 i j)
    have e2 : b i j - ∑ q ∈ F, A i q * b' q j - b' i j + (b' i j - A i row * b2 row j - b2 i j)
        = b i j - (A i row * b2 row j + ∑ q ∈ F, A i q * b' q j) - b2 i j := by ring
    rw [e2] at tri
    have e3 : ‖A i row * b2 row j‖ + ∑ q ∈ F, ‖A i q * b' q j‖ = ∑ q ∈ F, ‖A i q * b' q j‖ + ‖A i row * b2 row j‖ := add_comm _ _
    rw [e3]
    linarith

/-- A componentwise small residual is a componentwise small perturbation of the matrix. -/
theorem perturbC {A : Matrix (Fin n) (Fin m) ℂ} {x : Fin m → ℂ} {b : Fin n → ℂ} {g : ℝ} (hg : 0 ≤ g)
    (h : ∀ i, ‖b i - ∑ q, A i q * x q‖ ≤ g * ∑ q, ‖A i q * x q‖) :
    ∃ D : Matrix (Fin n) (Fin m) ℂ, (∀ i j, ‖D i j‖ ≤ g * ‖A i j‖) ∧ (A + D).mulVec x = b := by
  have key : ∀ i, ∃ D : Fin m → ℂ, (∀ j, ‖D j‖ ≤ g * ‖A i j‖) ∧ ∑ q, (A i q + D q) * x q = b i := by
    intro i
    set S := ∑ q, ‖A i q * x q‖ with hS
    set R := b i - ∑ q, A i q * x q with hR
    have hS0 : 0 ≤ S := Finset.sum_nonneg fun _ _ => norm_nonneg _
    have hi : ‖R‖ ≤ g * S := h i
    rcases hS0.lt_or_eq with hpos | hzero
    · have hrs : ‖R / (S : ℂ)‖ ≤ g := by rw [norm_div, Complex.norm_real, Real.norm_of_nonneg hS0, div_le_iff₀ hpos]; exact hi
      refine ⟨fun q => R / S * (star (A i q * x q) / (‖A i q * x q‖ : ℂ)) * A i q, fun j => ?_, ?_⟩
      · rw [norm_mul, norm_mul]
        have hs : ‖star (A i j * x j) / (‖A i j * x j‖ : ℂ)‖ ≤ 1 := by
          rw [norm_div, norm_star, Complex.norm_real, norm_norm]
          exact div_self_le_one _
        have : ‖R / (S : ℂ)‖ * ‖star (A i j * x j) / (‖A i j * x j‖ : ℂ)‖ ≤ g * 1 := mul_le_mul hrs hs (norm_nonneg _) hg
        rw [mul_one] at this
        exact mul_le_mul_of_nonneg_right this (norm_nonneg _)
      · have e : ∀ q, (A i q + R / S * (star (A i q * x q) / (‖A i q * x q‖ : ℂ)) * A i q) * x q = A i q * x q + R / S * (‖A i q * x q‖ : ℂ) := fun q => by
          have e1 : (star (A i q * x q) / (‖A i q * x q‖ : ℂ)) * (A i q * x q) = (‖A i q * x q‖ : ℂ) := by
            generalize A i q * x q = z
            by_cases hz : z = 0
            · subst hz; simp
            · have hz' : (‖z‖ : ℂ) ≠ 0 := by simpa using hz
              rw [div_mul_eq_mul_div, div_eq_iff hz', Complex.star_def, Complex.conj_mul', sq]
          have e2 : R / S * (‖A i q * x q‖ : ℂ) = R / S * ((star (A i q * x q) / (‖A i q * x q‖ : ℂ)) * (A i q * x q)) := by rw [e1]
          rw [e2]; ring
        simp only [e, Finset.sum_add_distrib, ← Finset.mul_sum]
        rw [← Complex.ofReal_sum, ← hS, div_mul_cancel₀ _ (by exact_mod_cast hpos.ne'), hR]; ring
    · rw [← hzero, mul_zero] at hi
      have hR0 : R = 0 := norm_eq_zero.1 (le_antisymm hi (norm_nonneg _))
      refine ⟨fun _ => 0, fun j => by rw [norm_zero]; exact mul_nonneg hg (norm_nonneg _), ?_⟩
      simp only [add_zero]
      exact (sub_eq_zero.1 hR0).symm
  choose D h1 h2 using key
  exact ⟨Matrix.of D, h1, by ext i; simpa [Matrix.mulVec, dotProduct] using h2 i⟩

theorem solveUpperC_residual {dv : ℂ → ℂ → ℂ} {u : ℝ} {rep : ℂ → Prop} {op : ℂ → ℂ → ℂ → ℂ} (h : ArithC u rep dv op) (h1 : u < 1) (A : Matrix (Fin n) (Fin n) ℂ) (b : Matrix (Fin n) (Fin m) ℂ) (hA : ∀ i j, rep (A i j)) (ht : ∀ i j, j < i → A i j = 0)
    (hd : ∀ i, A i i ≠ 0) :
    ∃ X, solveUpperC dv op A b = some X ∧ ∀ i j, ‖b i j - ∑ q, A i q * X q j‖ ≤ ((1 / (1 - u)) ^ n - 1) * ∑ q, ‖A i q * X q j‖ := by
  have := forDown_inv (n := n) (body := fun row (s : Option (Matrix (Fin n) (Fin n) ℂ × Matrix (Fin n) (Fin m) ℂ)) => s.bind (solveUpperStepC dv op row))
    (s := some (A, b))
    (fun k s => ∃ A' b', s = some (A', b') ∧ TriInvC u A b (Finset.univ.filter fun i => k ≤ i.val) (n - k) A' b') ?_ ?_
  · obtain ⟨A', b', e, inv⟩ := this
    refine ⟨b', by unfold solveUpperC; rw [e]; rfl, fun i j => ?_⟩
    simpa using inv.done i j (by simp)
  · refine ⟨A, b, rfl, ?_⟩
    have e : (Finset.univ.filter fun i : Fin n => n ≤ i.val) = ∅ := by
      ext i; simp [i.isLt]
    rw [e, Nat.sub_self]
    exact TriInvC.init u A b
  · rintro row _ ⟨A', b', rfl, inv⟩
    have hr : row ∉ Finset.univ.filter fun i : Fin n => row.val + 1 ≤ i.val := by simp
    have hrr : A' row row = A row row := inv.same row row hr hr
    rw [Option.bind_some, solveUpperStepC_eq dv op row A' b' (by rw [hrr]; exact hd row)]
    refine ⟨_, _, rfl, ?_⟩
    have e : (Finset.univ.filter fun i : Fin n => row.val ≤ i.val) = insert row (Finset.univ.filter fun i : Fin n => row.val + 1 ≤ i.val) := by
      ext i
      simp only [Finset.mem_filter, Finset.mem_univ, true_and, Finset.mem_insert, Fin.ext_iff]
      omega
    have e2 : n - row.val = n - (row.val + 1) + 1 := by have := row.isLt; omega
    rw [e, e2]
    refine inv.step h h1 hA hr (fun j hj hjr => ht row j ?_) (hd row) (fun i hi => ht i row ?_) (fun i j hi hir => ?_) (fun i j => ?_)
    · simp only [Finset.mem_filter, Finset.mem_univ, true_and, not_le] at hj
      have : j.val ≠ row.val := fun hh => hjr (Fin.ext hh)
      rw [Fin.lt_def]; omega
    · simp only [Finset.mem_filter, Finset.mem_univ, true_and] at hi
      rw [Fin.lt_def]; omega
    · simp only [Finset.mem_filter, Finset.mem_univ, true_and, not_le] at hi
      have : i.val ≠ row.val := fun hh => hir (Fin.ext hh)
      rw [Matrix.of_apply, if_neg hir, if_pos (by rw [Fin.lt_def]; omega)]
    · rw [Matrix.of_apply]
      by_cases hir : i = row
      · rw [if_pos hir, if_pos hir]
      · have : i.val ≠ row.val := fun hh => hir (Fin.ext hh)
        rw [if_neg hir, if_neg hir]
        by_cases hi : i < row
        · rw [if_pos hi, if_neg (by simp only [Finset.mem_filter, Finset.mem_univ, true_and]; rw [Fin.lt_def] at hi; omega)]
        · rw [if_neg hi, if_pos (by simp only [Finset.mem_filter, Finset.mem_univ, true_and]; rw [Fin.lt_def] at hi; omega)]

theorem solveLowerC_residual {dv : ℂ → ℂ → ℂ} {u : ℝ} {rep : ℂ → Prop} {op : ℂ → ℂ → ℂ → ℂ} (h : ArithC u rep dv op) (h1 : u < 1) (A : Matrix (Fin n) (Fin n) ℂ) (b : Matrix (Fin n) (Fin m) ℂ) (hA : ∀ i j, rep (A i j)) (ht : ∀ i j, i < j → A i j = 0)
    (hd : ∀ i, A i i ≠ 0) :
    ∃ X, solveLowerC dv op A b = some X ∧ ∀ i j, ‖b i j - ∑ q, A i q * X q j‖ ≤ ((1 / (1 - u)) ^ n - 1) * ∑ q, ‖A i q * X q j‖ := by
  have := forUp_inv (n := n) (lo := 0)
    (body := fun row (s : Option (Matrix (Fin n) (Fin n) ℂ × Matrix (Fin n) (Fin m) ℂ)) => s.bind (solveLowerStepC dv op row)) (s := some (A, b))
    (fun k s => ∃ A' b', s = some (A', b') ∧ TriInvC u A b (Finset.univ.filter fun i => i.val < k) k A' b') (Nat.zero_le _) ?_ ?_
  · obtain ⟨A', b', e, inv⟩ := this
    refine ⟨b', by unfold solveLowerC; rw [e]; rfl, fun i j => ?_⟩
    simpa using inv.done i j (by simp)
  · refine ⟨A, b, rfl, ?_⟩
    have e : (Finset.univ.filter fun i : Fin n => i.val < 0) = ∅ := by
      ext i; simp
    rw [e]
    exact TriInvC.init u A b
  · rintro row _ _ ⟨A', b', rfl, inv⟩
    have hr : row ∉ Finset.univ.filter fun i : Fin n => i.val < row.val := by simp
    have hrr : A' row row = A row row := inv.same row row hr hr
    rw [Option.bind_some, solveLowerStepC_eq dv op row A' b' (by rw [hrr]; exact hd row)]
    refine ⟨_, _, rfl, ?_⟩
    have e : (Finset.univ.filter fun i : Fin n => i.val < row.val + 1) = insert row (Finset.univ.filter fun i : Fin n => i.val < row.val) := by
      ext i
      simp only [Finset.mem_filter, Finset.mem_univ, true_and, Finset.mem_insert, Fin.ext_iff]
      omega
    rw [e]
    refine inv.step h h1 hA hr (fun j hj hjr => ht row j ?_) (hd row) (fun i hi => ht i row ?_) (fun i j hi hir => ?_) (fun i j => ?_)
    · simp only [Finset.mem_filter, Finset.mem_univ, true_and, not_lt] at hj
      have : j.val ≠ row.val := fun hh => hjr (Fin.ext hh)
      rw [Fin.lt_def]; omega
    · simp only [Finset.mem_filter, Finset.mem_univ, true_and] at hi
      rw [Fin.lt_def]; omega
    · simp only [Finset.mem_filter, Finset.mem_univ, true_and, not_lt] at hi
      have : i.val ≠ row.val := fun hh => hir (Fin.ext hh)
      rw [Matrix.of_apply, if_neg hir, if_pos (by rw [Fin.lt_def]; omega)]
    · rw [Matrix.of_apply]
      by_cases hir : i = row
      · rw [if_pos hir, if_pos hir]
      · have : i.val ≠ row.val := fun hh => hir (Fin.ext hh)
        rw [if_neg hir, if_neg hir]
        by_cases hi : row < i
        · rw [if_pos hi, if_neg (by simp only [Finset.mem_filter, Finset.mem_univ, true_and]; rw [Fin.lt_def] at hi; omega)]
        · rw [if_neg hi, if_pos (by simp only [Finset.mem_filter, Finset.mem_univ, true_and]; rw [Fin.lt_def] at hi; omega)]

/-! ## LU -/

theorem luElimC_loop (dv : ℂ → ℂ → ℂ) (op : ℂ → ℂ → ℂ → ℂ) (col : Fin n) (pr : Fin n → ℂ) (s : LU ℂ n) :
    forUp n (col.val + 1) (fun row => luElimC dv op col row pr) s
      = ⟨Matrix.of fun i j => if col < i ∧ j = col then dv (s.U i col) (pr col) else s.L i j,
         Matrix.of fun i j => if col < i then (if j = col then 0 else op (s.U i j) (pr j) (dv (s.U i col) (pr col))) else s.U i j⟩ := by
  have := forUp_inv (n := n) (lo := col.val + 1) (body := fun row => luElimC dv op col row pr) (s := s)
    (fun k s' => s' = ⟨Matrix.of fun i j => if (i.val < k ∧ col < i) ∧ j = col then dv (s.U i col) (pr col) else s.L i j,
         Matrix.of fun i j => if i.val < k ∧ col < i then (if j = col then 0 else op (s.U i j) (pr j) (dv (s.U i col) (pr col))) else s.U i j⟩)
      (by omega) ?_ ?_
  · rw [this]; simp
  · cases s with
    | mk L U =>
      rw [LU.mk.injEq]
      constructor
      · ext i j; simp only [Matrix.of_apply]; rw [if_neg (by omega)]
      · ext i j; simp only [Matrix.of_apply]; rw [if_neg (by omega)]
  · rintro t _ ht rfl
    have ht' : col < t := ht
    simp only [luElimC]
    rw [LU.mk.injEq]
    constructor
    · ext i j
      simp only [Matrix.of_apply]
      by_cases h : i = t
      · subst h; simp [ht']
      · have : t.val ≠ i.val := fun h' => h (Fin.ext h'.symm)
        have e : (i.val < t.val + 1 ∧ col < i) ↔ (i.val < t.val ∧ col < i) := by omega
        simp only [h, false_and, if_false, e]
    · ext i j
      simp only [Matrix.of_apply, Matrix.updateRow_apply]
      by_cases h : i = t
      · subst h; simp [ht']
      · have : t.val ≠ i.val := fun h' => h (Fin.ext h'.symm)
        have e : (i.val < t.val + 1 ∧ col < i) ↔ (i.val < t.val ∧ col < i) := by omega
        simp only [h, false_and, if_false, e]

/-- State of the rounded elimination before column `k`, for the matrix `A` with its rows permuted so far. -/
structure FLUC (rep : ℂ → Prop) (u : ℝ) (A L U : Matrix (Fin n) (Fin n) ℂ) (k : ℕ) : Prop where
  fixL : ∀ i j, rep (L i j)
  fixU : ∀ i j, rep (U i j)
  lu : ∃ (M : Matrix (Fin n) (Fin n) ℂ) (B : Matrix (Fin n) (Fin n) ℝ), LUInv M L U k ∧ LUInv B (L.map fun x => ‖x‖) (U.map fun x => ‖x‖) k ∧
    ∀ i j, ‖M i j - A i j‖ ≤ ((1 / (1 - u)) ^ k - 1) * B i j

theorem FLUC.init {rep : ℂ → Prop} (u : ℝ) (f0 : rep 0) (f1 : rep 1) {A : Matrix (Fin n) (Fin n) ℂ} (hA : ∀ i j, rep (A i j)) : FLUC rep u A 1 A 0 := by
  refine ⟨fun i j => ?_, hA, A, A.map fun x => ‖x‖, LUInv.init A, ?_, fun i j => by simp⟩
  · rw [Matrix.one_apply]; split <;> assumption
  · have e : ((1 : Matrix (Fin n) (Fin n) ℂ).map fun x => ‖x‖) = (1 : Matrix (Fin n) (Fin n) ℝ) := by
      ext i j
      rw [Matrix.map_apply, Matrix.one_apply, Matrix.one_apply]; split <;> simp
    rw [e]
    exact LUInv.init _

private theorem lu_nonneg {B : Matrix (Fin n) (Fin n) ℝ} {L U : Matrix (Fin n) (Fin n) ℂ} {k : ℕ} (h : LUInv B (L.map fun x => ‖x‖) (U.map fun x => ‖x‖) k) (i j : Fin n) :
    0 ≤ B i j - ‖U i j‖ := by
  rw [h.eq i j]
  simp only [Matrix.map_apply, add_sub_cancel_right]
  apply Finset.sum_nonneg
  intro q _
  split
  · exact mul_nonneg (norm_nonneg _) (norm_nonneg _)
  · exact le_rfl

theorem FLUC.skip {rep : ℂ → Prop} {u : ℝ} (h0 : 0 ≤ u) (h1 : u < 1) {A L U : Matrix (Fin n) (Fin n) ℂ} {col : Fin n} (h : FLUC rep u A L U col.val)
    (hz : ∀ i, col ≤ i → U i col = 0) : FLUC rep u A L U (col.val + 1) := by
  obtain ⟨M, B, hM, hB, hb⟩ := h.lu
  refine ⟨h.fixL, h.fixU, M, B, hM.skip hz, hB.skip fun i hi => by rw [Matrix.map_apply, hz i hi, norm_zero], fun i j => (hb i j).trans ?_⟩
  have := lu_nonneg hB i j
  exact mul_le_mul_of_nonneg_right (growth_mono h0 h1 (Nat.le_succ _)) (by linarith [norm_nonneg (U i j)])

theorem FLUC.swap {rep : ℂ → Prop} {u : ℝ} {A L U : Matrix (Fin n) (Fin n) ℂ} {col piv : Fin n} (h : FLUC rep u A L U col.val) (hp : col ≤ piv) :
    FLUC rep u (Matrix.of fun i j => A (Equiv.swap col piv i) j)
      (Matrix.of fun i j => if j.val < col.val then L (Equiv.swap col piv i) j else L i j)
      (Matrix.of fun i j => U (Equiv.swap col piv i) j) col.val := by
  obtain ⟨M, B, hM, hB, hb⟩ := h.lu
  refine ⟨fun i j => ?_, fun i j => h.fixU _ _, _, Matrix.of fun i j => B (Equiv.swap col piv i) j, hM.swap hp, ?_,
    fun i j => hb (Equiv.swap col piv i) j⟩
  · simp only [Matrix.of_apply]; split <;> exact h.fixL _ _
  · have := hB.swap hp
    have e : (Matrix.of fun i j => if j.val < col.val then L (Equiv.swap col piv i) j else L i j).map (fun x => ‖x‖)
        = Matrix.of fun i j => if j.val < col.val then (L.map fun x => ‖x‖) (Equiv.swap col piv i) j else (L.map fun x => ‖x‖) i j := by
      ext i j
      simp only [Matrix.map_apply, Matrix.of_apply]
      split <;> rfl
    rw [e]
    exact this

theorem FLUC.step {u : ℝ} {rep : ℂ → Prop} {dv : ℂ → ℂ → ℂ} {op : ℂ → ℂ → ℂ → ℂ} (hr : ArithC u rep dv op) (h1 : u < 1)
    {A L U : Matrix (Fin n) (Fin n) ℂ} {col : Fin n} (h : FLUC rep u A L U col.val) (hp : U col col ≠ 0) :
    FLUC rep u A (Matrix.of fun i j => if col < i ∧ j = col then dv (U i col) (U col col) else L i j)
      (Matrix.of fun i j => if col < i then (if j = col then 0 else op (U i j) (U col j) (dv (U i col) (U col col))) else U i j) (col.val + 1) := by
  obtain ⟨M, B, hM, hB, hb⟩ := h.lu
  set s : Fin n → ℂ := fun i => dv (U i col) (U col col) with hs
  set V : Matrix (Fin n) (Fin n) ℂ := fun i j => if j = col then 0 else op (U i j) (U col j) (s i) with hV
  have hV0 : ∀ i j, col < i → j ≤ col → V i j = 0 := by
    intro i j hi hj
    simp only [hV]
    by_cases hjc : j = col
    · rw [if_pos hjc]
    · have : j.val ≠ col.val := fun h' => hjc (Fin.ext h')
      rw [Fin.le_def] at hj
      have z1 : U i j = 0 := hM.low i j (by omega) (by rw [Fin.lt_def] at hi ⊢; omega)
      have z2 : U col j = 0 := hM.low col j (by omega) (by rw [Fin.lt_def]; omega)
      rw [if_neg hjc, z1, z2]
      exact hr.zero_left _ _ hr.rep_zero
  have hV1 : ∀ i j, rep (V i j) := by
    intro i j
    simp only [hV]
    split
    · exact hr.rep_zero
    · exact hr.rep_op _ _ _
  refine ⟨fun i j => ?_, fun i j => ?_, _,
    Matrix.of fun i j => if col < i then B i j - ‖U i j‖ + ‖s i‖ * ‖U col j‖ + ‖V i j‖ else B i j, hM.write s V hV0, ?_, fun i j => ?_⟩
  · simp only [Matrix.of_apply]
    split
    · exact hr.rep_dv _ _ hp
    · exact h.fixL _ _
  · simp only [Matrix.of_apply]
    split
    · exact hV1 i j
    · exact h.fixU _ _
  · have := hB.write (fun i => ‖s i‖) (V.map fun x => ‖x‖) (fun i j hi hj => by rw [Matrix.map_apply, hV0 i j hi hj, norm_zero])
    have e1 : (Matrix.of fun i j => if col < i ∧ j = col then s i else L i j).map (fun x => ‖x‖)
        = Matrix.of fun i j => if col < i ∧ j = col then ‖s i‖ else (L.map fun x => ‖x‖) i j := by
      ext i j
      simp only [Matrix.map_apply, Matrix.of_apply]
      split <;> rfl
    have e2 : (Matrix.of fun i j => if col < i then V i j else U i j).map (fun x => ‖x‖)
        = Matrix.of fun i j => if col < i then (V.map fun x => ‖x‖) i j else (U.map fun x => ‖x‖) i j := by
      ext i j
      simp only [Matrix.map_apply, Matrix.of_apply]
      split <;> rfl
    rw [← e1, ← e2] at this
    exact this
  · have hS := lu_nonneg hB i j
    have hG := growth_nonneg hr.u_nonneg h1 col.val
    have e := hb i j
    simp only [Matrix.of_apply]
    by_cases hi : col < i
    · rw [if_pos hi, if_pos hi]
      have key : ((1 / (1 - u)) ^ col.val - 1) * ((B i j - ‖U i j‖) + ‖U i j‖) + ‖U i j - s i * U col j - V i j‖
          ≤ ((1 / (1 - u)) ^ (col.val + 1) - 1) * ((B i j - ‖U i j‖) + ‖s i * U col j‖ + ‖V i j‖) := by
        by_cases hj : j = col
        · subst hj
          have d := div_boundC hr h1 hG hS (U i j) hp
          rw [← growth_succ] at d
          have hv : V i j = 0 := hV0 i j hi le_rfl
          rw [hv, norm_zero, add_zero, sub_zero, mul_comm (s i)]
          exact d
        · have d := step_boundC hr h1 hG hS (U i j) (U col j) (s i)
          rw [← growth_succ] at d
          have hv : V i j = op (U i j) (U col j) (s i) := by simp only [hV]; rw [if_neg hj]
          rw [hv, mul_comm (s i)]
          exact d
      have tri := norm_add_le (M i j - A i j) (-(U i j - s i * U col j - V i j))
      rw [norm_neg] at tri
      have e2 : M i j - A i j + -(U i j - s i * U col j - V i j) = M i j - U i j + s i * U col j + V i j - A i j := by ring
      rw [e2] at tri
      rw [norm_mul] at key
      rw [sub_add_cancel] at key
      linarith
    · rw [if_neg hi, if_neg hi]
      exact e.trans (mul_le_mul_of_nonneg_right (growth_mono hr.u_nonneg h1 (Nat.le_succ _)) (by linarith [norm_nonneg (U i j)]))

/-- At the end of the loop: the residual of the factorisation. -/
theorem FLUC.final {rep : ℂ → Prop} {u : ℝ} {A L U : Matrix (Fin (n + 1)) (Fin (n + 1)) ℂ} (h : FLUC rep u A L U n) :
    (∀ i, L i i = 1) ∧ (∀ i j, i < j → L i j = 0) ∧ (∀ i j, j < i → U i j = 0) ∧
    ∀ i j, ‖(L * U) i j - A i j‖ ≤ ((1 / (1 - u)) ^ n - 1) * ∑ q, ‖L i q‖ * ‖U q j‖ := by
  obtain ⟨M, B, hM, hB, hb⟩ := h.lu
  obtain ⟨a1, a2, a3⟩ := hM.final
  obtain ⟨-, -, b3⟩ := hB.final
  refine ⟨hM.diag, a1, a2, fun i j => ?_⟩
  have := hb i j
  rw [← a3, ← b3] at this
  exact this

/-- The loop of `DecomposeLU`, when it meets no zero pivot. -/
theorem decomposeLUC_inv {u : ℝ} {rep : ℂ → Prop} {dv : ℂ → ℂ → ℂ} {op : ℂ → ℂ → ℂ → ℂ} (hr : ArithC u rep dv op) (h1 : u < 1)
    {A : Matrix (Fin (n + 1)) (Fin (n + 1)) ℂ} (hA : ∀ i j, rep (A i j)) {d : LU ℂ (n + 1)} (hd : decomposeLUC dv op A = some d) :
    FLUC rep u A d.L d.U n := by
  classical
  have := forUp_inv (n := n) (lo := 0) (body := fun col (s : Option (LU ℂ (n + 1))) => s.bind fun s =>
    let pivotRow := s.U col.castSucc
    if pivotRow col.castSucc = 0 then none
    else some (forUp (n + 1) (col.val + 1) (fun row => luElimC dv op col.castSucc row pivotRow) s)) (s := some ⟨1, A⟩)
    (fun k s => ∀ d, s = some d → FLUC rep u A d.L d.U k) (Nat.zero_le _) ?_ ?_
  · exact this d (by rw [← hd]; unfold decomposeLUC; congr 1)
  · rintro d he
    cases he
    exact FLUC.init u hr.rep_zero hr.rep_one hA
  · rintro col s - ih d he
    rcases s with _ | s
    · simp at he
    · rw [Option.bind_some] at he
      by_cases hp : s.U col.castSucc col.castSucc = 0
      · simp only [hp, if_true] at he; cases he
      · simp only [hp, if_false] at he
        cases he
        rw [show col.val + 1 = col.castSucc.val + 1 from rfl, luElimC_loop]
        exact (ih s rfl).step (col := col.castSucc) hr h1 hp

/-- State of the rounded LUP loop. -/
structure FLUPC (rep : ℂ → Prop) (u c : ℝ) (A : Matrix (Fin n) (Fin n) ℂ) (d : LUP ℂ n) (k : ℕ) : Prop where
  inj : Function.Injective d.P
  lu : FLUC rep u (Matrix.of fun i j => A (d.P i) j) d.L d.U k
  bound : ∀ i j, ‖d.L i j‖ ≤ c

private theorem ratio_bound {u w : ℝ} {rep : ℂ → Prop} {dv : ℂ → ℂ → ℂ} {op : ℂ → ℂ → ℂ → ℂ} (hr : ArithC u rep dv op) {ab : ℂ → ℝ} (hw : w < 1)
    (hab : ∀ z, abs (ab z - ‖z‖) ≤ w * ‖z‖) {a d : ℂ} (hd : d ≠ 0) (h : ab a ≤ ab d) : ‖dv a d‖ ≤ (1 + u) * ((1 + w) / (1 - w)) := by
  have hw0 : 0 < 1 - w := by linarith
  have hdn : 0 < ‖d‖ := norm_pos_iff.2 hd
  have e1 := (abs_le.1 (hab a)).1
  have e2 := (abs_le.1 (hab d)).2
  have e3 : ‖a / d‖ ≤ (1 + w) / (1 - w) := by
    rw [norm_div, div_le_div_iff₀ hdn hw0]
    linarith
  have e4 : ‖dv a d‖ ≤ (1 + u) * ‖a / d‖ := by
    have := hr.div a d hd
    have t := norm_add_le (dv a d - a / d) (a / d)
    rw [sub_add_cancel] at t
    linarith
  exact e4.trans (mul_le_mul_of_nonneg_left e3 (by linarith [hr.u_nonneg]))

theorem FLUPC.step {u w : ℝ} {rep : ℂ → Prop} {dv : ℂ → ℂ → ℂ} {op : ℂ → ℂ → ℂ → ℂ} (hr : ArithC u rep dv op) (h1 : u < 1) {ab : ℂ → ℝ} (hw : w < 1)
    (hab : ∀ z, abs (ab z - ‖z‖) ≤ w * ‖z‖) {A : Matrix (Fin n) (Fin n) ℂ} {d : LUP ℂ n} {col : Fin n} (h : FLUPC rep u ((1 + u) * ((1 + w) / (1 - w))) A d col.val) :
    FLUPC rep u ((1 + u) * ((1 + w) / (1 - w))) A (lupStepC dv ab op col d) (col.val + 1) := by
  obtain ⟨hge, hmax⟩ := maxElementIdx_spec (fun i => ab (d.U i col)) col
  set piv := maxElementIdx (fun i => ab (d.U i col)) col with hpiv
  clear_value piv
  unfold lupStepC
  simp only
  rw [← hpiv]
  by_cases hp : d.U piv col ≠ 0
  · rw [if_pos hp, swapL_loop, luElimC_loop]
    have hU : (d.U.updateRow piv (d.U col)).updateRow col (d.U piv) = Matrix.of fun i j => d.U (Equiv.swap col piv i) j := by
      ext i j
      simp only [Matrix.updateRow_apply, Matrix.of_apply]
      by_cases h1 : i = col
      · simp [h1]
      · by_cases h2 : i = piv
        · simp [h2]
          intro h3; rw [h3]
        · simp [h1, h2, Equiv.swap_apply_of_ne_of_ne h1 h2]
    have hP : (fun i => if i = piv then d.P col else if i = col then d.P piv else d.P i) = fun i => d.P (Equiv.swap col piv i) := by
      funext i
      by_cases h2 : i = piv
      · simp [h2]
      · by_cases h1 : i = col
        · subst h1; rw [if_neg h2, if_pos rfl, Equiv.swap_apply_left]
        · simp [h1, h2, Equiv.swap_apply_of_ne_of_ne h1 h2]
    rw [hU, hP]
    have hsw := h.lu.swap hge
    have hpv : (Matrix.of fun i j => d.U (Equiv.swap col piv i) j : Matrix (Fin n) (Fin n) ℂ) col col ≠ 0 := by simpa using hp
    have hst := hsw.step hr h1 hpv
    refine ⟨fun a b hab => (Equiv.swap col piv).injective (h.inj hab), ?_, ?_⟩
    · simpa using hst
    · intro i j
      simp only [Matrix.of_apply]
      split
      · rename_i hc
        apply ratio_bound hr hw hab hp
        apply hmax
        by_cases h2 : i = piv
        · rw [h2, Equiv.swap_apply_right]
        · rw [Equiv.swap_apply_of_ne_of_ne (ne_of_gt hc.1) h2]; exact hc.1.le
      · split <;> exact h.bound _ _
  · rw [if_neg hp]
    push Not at hp
    refine ⟨h.inj, h.lu.skip hr.u_nonneg h1 fun i hi => ?_, h.bound⟩
    have := hmax i hi
    rw [hp] at this
    have e0 := hab 0
    have e1 := hab (d.U i col)
    rw [norm_zero, mul_zero, sub_zero, abs_nonpos_iff] at e0
    rw [e0] at this
    have e2 := (abs_le.1 e1).1
    have e3 := norm_nonneg (d.U i col)
    have e4 : ‖d.U i col‖ = 0 := by
      rcases e3.lt_or_eq with hlt | heq
      · have : 0 < (1 - w) * ‖d.U i col‖ := mul_pos (by linarith) hlt
        linarith
      · exact heq.symm
    exact norm_eq_zero.1 e4

theorem decomposeLUPC_inv {u w : ℝ} {rep : ℂ → Prop} {dv : ℂ → ℂ → ℂ} {op : ℂ → ℂ → ℂ → ℂ} (hr : ArithC u rep dv op) (h1 : u < 1) {ab : ℂ → ℝ} (hw : w < 1)
    (hab : ∀ z, abs (ab z - ‖z‖) ≤ w * ‖z‖) {A : Matrix (Fin (n + 1)) (Fin (n + 1)) ℂ} (hA : ∀ i j, rep (A i j)) :
    FLUPC rep u ((1 + u) * ((1 + w) / (1 - w))) A (decomposeLUPC dv ab op A) n :=
  forUp_inv (n := n) (lo := 0) (body := fun col => lupStepC dv ab op col.castSucc) (s := (⟨1, A, id⟩ : LUP ℂ (n + 1)))
    (fun k s => FLUPC rep u ((1 + u) * ((1 + w) / (1 - w))) A s k) (Nat.zero_le _)
    ⟨Function.injective_id, FLUC.init u hr.rep_zero hr.rep_one hA, fun i j => by
      show ‖(1 : Matrix (Fin (n + 1)) (Fin (n + 1)) ℂ) i j‖ ≤ _
      have w0 : 0 ≤ w := by have := (abs_nonneg _).trans (hab 1); simpa using this
      have c1 : 1 ≤ (1 + w) / (1 - w) := by rw [le_div_iff₀ (by linarith)]; linarith
      have c2 : 1 ≤ (1 + u) * ((1 + w) / (1 - w)) := one_le_mul_of_one_le_of_one_le (by linarith [hr.u_nonneg]) c1
      rw [Matrix.one_apply]
      split
      · rw [norm_one]; exact c2
      · rw [norm_zero]; linarith⟩
    (fun _ _ _ h => FLUPC.step hr h1 hw hab h)

private theorem compose_arith {g : ℝ} {l dl v dv : ℂ} (hdl : ‖dl‖ ≤ g * ‖l‖) (hdv : ‖dv‖ ≤ g * ‖v‖) :
    ‖(l + dl) * (v + dv) - l * v‖ ≤ ((1 + g) ^ 2 - 1) * (‖l‖ * ‖v‖) := by
  have e : (l + dl) * (v + dv) - l * v = l * dv + dl * v + dl * dv := by ring
  rw [e]
  have t1 := norm_add_le (l * dv + dl * v) (dl * dv)
  have t2 := norm_add_le (l * dv) (dl * v)
  rw [norm_mul, norm_mul] at t2
  rw [norm_mul] at t1
  have h1 := mul_le_mul_of_nonneg_left hdv (norm_nonneg l)
  have h2 := mul_le_mul_of_nonneg_right hdl (norm_nonneg v)
  have h3 := mul_le_mul hdl hdv (norm_nonneg _) (le_trans (norm_nonneg _) hdl)
  nlinarith

/-- Solving with perturbed factors is solving with one perturbed matrix. -/
theorem composeC {u : ℝ} (h0 : 0 ≤ u) (h1 : u < 1) {k t : ℕ} {A L U DL DU : Matrix (Fin n) (Fin n) ℂ}
    (hA : ∀ i j, ‖(L * U) i j - A i j‖ ≤ ((1 / (1 - u)) ^ k - 1) * ∑ q, ‖L i q‖ * ‖U q j‖)
    (hL : ∀ i j, ‖DL i j‖ ≤ ((1 / (1 - u)) ^ t - 1) * ‖L i j‖) (hU : ∀ i j, ‖DU i j‖ ≤ ((1 / (1 - u)) ^ t - 1) * ‖U i j‖) (i j : Fin n) :
    ‖((L + DL) * (U + DU) - A) i j‖ ≤ ((1 / (1 - u)) ^ (k + 2 * t) - 1) * ∑ q, ‖L i q‖ * ‖U q j‖ := by
  set g := (1 / (1 - u)) ^ t - 1 with hg
  set S := ∑ q, ‖L i q‖ * ‖U q j‖ with hS
  have hS0 : 0 ≤ S := Finset.sum_nonneg fun _ _ => mul_nonneg (norm_nonneg _) (norm_nonneg _)
  have e1 : ‖((L + DL) * (U + DU)) i j - (L * U) i j‖ ≤ ((1 + g) ^ 2 - 1) * S := by
    rw [Matrix.mul_apply, Matrix.mul_apply, ← Finset.sum_sub_distrib, hS, Finset.mul_sum]
    exact (norm_sum_le _ _).trans (Finset.sum_le_sum fun q _ => compose_arith (hL i q) (hU q j))
  have tri := norm_add_le (((L + DL) * (U + DU)) i j - (L * U) i j) ((L * U) i j - A i j)
  rw [sub_add_sub_cancel] at tri
  rw [Matrix.sub_apply]
  have e2 := hA i j
  have a := growth_nonneg h0 h1 k
  have b := growth_nonneg h0 h1 (2 * t)
  have e3 : (1 + g) ^ 2 = (1 / (1 - u)) ^ (2 * t) := by rw [hg, add_sub_cancel, ← pow_mul, mul_comm t 2]
  rw [e3] at e1
  have e4 : (1 / (1 - u)) ^ (k + 2 * t) - 1 = ((1 / (1 - u)) ^ k - 1) * ((1 / (1 - u)) ^ (2 * t) - 1) + ((1 / (1 - u)) ^ k - 1) + ((1 / (1 - u)) ^ (2 * t) - 1) := by
    rw [pow_add]; ring
  rw [e4]
  have := mul_nonneg (mul_nonneg a b) hS0
  nlinarith

end Mathter.Fl
