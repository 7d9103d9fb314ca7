import Verif.Lemmas.LinearSolve
import Verif.Model.RoundedLinear
import Verif.Spec.Rounding
import Mathlib.Tactic.Linarith
import Mathlib.Tactic.Positivity

/-! # Lemmas about rounded elimination steps, the triangular solvers and the LU decompositions -/

namespace Mathter.Fl
variable {n m : ℕ}

/-- Growth of the error bound after one more operation. -/
theorem growth_succ (u : ℝ) (k : ℕ) : (1 / (1 - u)) ^ (k + 1) - 1 = (((1 / (1 - u)) ^ k - 1) + 1) / (1 - u) - 1 := by
  rw [pow_succ, sub_add_cancel, mul_one_div]

theorem growth_nonneg {u : ℝ} (h0 : 0 ≤ u) (h1 : u < 1) (k : ℕ) : 0 ≤ (1 / (1 - u)) ^ k - 1 := by
  have : 1 ≤ 1 / (1 - u) := by rw [le_div_iff₀ (by linarith)]; linarith
  have := one_le_pow₀ this (n := k)
  linarith

theorem growth_mono {u : ℝ} (h0 : 0 ≤ u) (h1 : u < 1) {k l : ℕ} (h : k ≤ l) : (1 / (1 - u)) ^ k - 1 ≤ (1 / (1 - u)) ^ l - 1 := by
  have : 1 ≤ 1 / (1 - u) := by rw [le_div_iff₀ (by linarith)]; linarith
  have := pow_le_pow_right₀ this h
  linarith

private theorem step_arith {u G S U p q w : ℝ} (h0 : 0 ≤ u) (h1 : u < 1) (hG : 0 ≤ G) (hS : 0 ≤ S) (hq : |q - p| ≤ u * |p|) (hw : |w - (U - q)| ≤ u * |U - q|) :
    G * (S + |U|) + |U - p - w| ≤ ((G + 1) / (1 - u) - 1) * (S + |p| + |w|) := by
  have hd : 0 < 1 - u := by linarith
  -- `|U - q| ≤ |w| / (1 - u)`
  have a1 : (1 - u) * |U - q| ≤ |w| := by
    have := abs_sub_abs_le_abs_sub (U - q) w
    rw [abs_sub_comm (U - q) w] at this
    linarith
  have a2 : |U - q| ≤ |w| / (1 - u) := by rw [le_div_iff₀ hd]; linarith
  have a3 : |q| ≤ (1 + u) * |p| := by
    have := abs_sub_abs_le_abs_sub q p
    linarith
  have a4 : |U| ≤ |U - q| + |q| := by simpa using abs_add_le (U - q) q
  have a5 : |U - p - w| ≤ u * |U - q| + u * |p| := by
    have := abs_add_le (U - q - w) (q - p)
    rw [abs_sub_comm (U - q) w] at this
    have e : U - q - w + (q - p) = U - p - w := by ring
    rw [e] at this
    linarith
  have hp := abs_nonneg p
  have hw0 := abs_nonneg w
  have k1 : 1 + u ≤ 1 / (1 - u) := by rw [le_div_iff₀ hd]; nlinarith
  have k2 : 1 ≤ 1 / (1 - u) := by linarith
  have e1 : (G + 1) / (1 - u) = (G + 1) * (1 / (1 - u)) := by rw [mul_one_div]
  rw [e1]
  rw [div_eq_mul_one_div] at a2
  set Q := 1 / (1 - u)
  have hQ : Q * (1 - u) = 1 := by simp only [Q]; field_simp
  have b1 : G * |U| ≤ G * (|w| * Q + (1 + u) * |p|) := mul_le_mul_of_nonneg_left (by linarith) hG
  have b2 : u * |U - q| ≤ u * (|w| * Q) := mul_le_mul_of_nonneg_left a2 h0
  have b3 : (G + 1) * (1 + u) * |p| ≤ (G + 1) * Q * |p| := mul_le_mul_of_nonneg_right (mul_le_mul_of_nonneg_left k1 (by linarith)) hp
  have b4 : (G + 1) * S ≤ (G + 1) * Q * S := mul_le_mul_of_nonneg_right (by nlinarith) hS
  have b5 : u * (|w| * Q) = |w| * Q - |w| := by linear_combination (-|w|) * hQ
  nlinarith

/-- One subtraction of a product. -/
theorem step_bound {fl : ℝ → ℝ} {u : ℝ} (h : Rounding fl u) (h1 : u < 1) {op : ℝ → ℝ → ℝ → ℝ} (hop : IsMulSub fl op) {G S : ℝ} (hG : 0 ≤ G) (hS : 0 ≤ S)
    (U a b : ℝ) : G * (S + |U|) + |U - a * b - op U a b| ≤ ((G + 1) / (1 - u) - 1) * (S + |a * b| + |op U a b|) := by
  rcases hop U a b with e | e
  · rw [e]
    exact step_arith h.u_nonneg h1 hG hS (h.err _) (h.err _)
  · rw [e]
    exact step_arith (q := a * b) h.u_nonneg h1 hG hS (by rw [sub_self, abs_zero]; exact mul_nonneg h.u_nonneg (abs_nonneg _)) (h.err _)

/-- One division. -/
theorem div_bound {fl : ℝ → ℝ} {u : ℝ} (h : Rounding fl u) (h1 : u < 1) {G S : ℝ} (hG : 0 ≤ G) (hS : 0 ≤ S) (U : ℝ) {d : ℝ} (hd : d ≠ 0) :
    G * (S + |U|) + |U - d * fl (U / d)| ≤ ((G + 1) / (1 - u) - 1) * (S + |d * fl (U / d)|) := by
  have e := h.err (U / d)
  have e2 : |d * fl (U / d) - U| ≤ u * |U| := by
    have e3 : d * fl (U / d) - U = d * (fl (U / d) - U / d) := by field_simp
    have e4 : |U| = |d| * |U / d| := by rw [← abs_mul]; congr 1; field_simp
    rw [e3, abs_mul, e4]
    have := mul_le_mul_of_nonneg_left e (abs_nonneg d)
    linarith
  have := step_arith (p := 0) (q := 0) (w := d * fl (U / d)) h.u_nonneg h1 hG hS (by simp) (by simpa using e2)
  simpa using this

/-- Rounded numbers are fixed, so one subtraction of the product with 0 or of the number itself is exact. -/
theorem IsMulSub.zero_right {fl : ℝ → ℝ} {op : ℝ → ℝ → ℝ → ℝ} (hop : IsMulSub fl op) (h0 : fl 0 = 0) {a : ℝ} (ha : fl a = a) (b : ℝ) : op a b 0 = a := by
  rcases hop a b 0 with e | e <;> rw [e] <;> simp [h0, ha]

theorem IsMulSub.zero_left {fl : ℝ → ℝ} {op : ℝ → ℝ → ℝ → ℝ} (hop : IsMulSub fl op) (h0 : fl 0 = 0) {a : ℝ} (ha : fl a = a) (b : ℝ) : op a 0 b = a := by
  rcases hop a 0 b with e | e <;> rw [e] <;> simp [h0, ha]

theorem IsMulSub.self {fl : ℝ → ℝ} {op : ℝ → ℝ → ℝ → ℝ} (hop : IsMulSub fl op) (h0 : fl 0 = 0) {a : ℝ} (ha : fl a = a) : op a a 1 = 0 := by
  rcases hop a a 1 with e | e <;> rw [e] <;> simp [h0, ha]

theorem IsMulSub.rounded {fl : ℝ → ℝ} {op : ℝ → ℝ → ℝ → ℝ} (hop : IsMulSub fl op) (hid : ∀ x, fl (fl x) = fl x) (a b d : ℝ) : fl (op a b d) = op a b d := by
  rcases hop a b d with e | e <;> rw [e, hid]

/-! ## Triangular solvers -/

theorem elimDown_eq (op : ℝ → ℝ → ℝ → ℝ) (row : Fin n) (ra : Fin n → ℝ) (rb : Fin m → ℝ) (s : Matrix (Fin n) (Fin n) ℝ × Matrix (Fin n) (Fin m) ℝ) :
    forDown row.val (fun t => elimTarget op row ⟨t.val, by omega⟩ ra rb) s
      = (Matrix.of fun i j => if i < row then op (s.1 i j) (s.1 i row) (ra j) else s.1 i j,
         Matrix.of fun i j => if i < row then op (s.2 i j) (s.1 i row) (rb j) else s.2 i j) := by
  have := forDown_inv (n := row.val) (body := fun t => elimTarget op row ⟨t.val, by omega⟩ ra rb) (s := s)
    (fun k s' => s' = (Matrix.of fun i j => if k ≤ i.val ∧ i < row then op (s.1 i j) (s.1 i row) (ra j) else s.1 i j,
         Matrix.of fun i j => if k ≤ i.val ∧ i < row then op (s.2 i j) (s.1 i row) (rb j) else s.2 i j)) ?_ ?_
  · rw [this]; simp
  · ext i j
    · simp only [Matrix.of_apply]; rw [if_neg (by omega)]
    · simp only [Matrix.of_apply]; rw [if_neg (by omega)]
  · rintro t _ rfl
    unfold elimTarget
    ext i j
    · simp only [Matrix.updateRow_apply, Matrix.of_apply]
      by_cases h : i = ⟨t.val, by omega⟩
      · subst h; simp [Fin.lt_def]
      · have : t.val ≠ i.val := fun h' => h (Fin.ext h'.symm)
        rw [if_neg h]
        by_cases h2 : t.val ≤ i.val ∧ i < row
        · rw [if_pos h2, if_pos ⟨by omega, h2.2⟩]
        · rw [if_neg h2, if_neg (by omega)]
    · simp only [Matrix.updateRow_apply, Matrix.of_apply]
      by_cases h : i = ⟨t.val, by omega⟩
      · subst h; simp [Fin.lt_def]
      · have : t.val ≠ i.val := fun h' => h (Fin.ext h'.symm)
        rw [if_neg h]
        by_cases h2 : t.val ≤ i.val ∧ i < row
        · rw [if_pos h2, if_pos ⟨by omega, h2.2⟩]
        · rw [if_neg h2, if_neg (by omega)]

theorem elimUp_eq (op : ℝ → ℝ → ℝ → ℝ) (row : Fin n) (ra : Fin n → ℝ) (rb : Fin m → ℝ) (s : Matrix (Fin n) (Fin n) ℝ × Matrix (Fin n) (Fin m) ℝ) :
    forUp n (row.val + 1) (fun t => elimTarget op row t ra rb) s
      = (Matrix.of fun i j => if row < i then op (s.1 i j) (s.1 i row) (ra j) else s.1 i j,
         Matrix.of fun i j => if row < i then op (s.2 i j) (s.1 i row) (rb j) else s.2 i j) := by
  have := forUp_inv (n := n) (lo := row.val + 1) (body := fun t => elimTarget op row t ra rb) (s := s)
    (fun k s' => s' = (Matrix.of fun i j => if i.val < k ∧ row < i then op (s.1 i j) (s.1 i row) (ra j) else s.1 i j,
         Matrix.of fun i j => if i.val < k ∧ row < i then op (s.2 i j) (s.1 i row) (rb j) else s.2 i j)) (by omega) ?_ ?_
  · rw [this]; simp
  · ext i j
    · simp only [Matrix.of_apply]; rw [if_neg (by omega)]
    · simp only [Matrix.of_apply]; rw [if_neg (by omega)]
  · rintro t _ ht rfl
    unfold elimTarget
    have ht' : row < t := ht
    ext i j
    · simp only [Matrix.updateRow_apply, Matrix.of_apply]
      by_cases h : i = t
      · subst h; simp [ht']
      · have : t.val ≠ i.val := fun h' => h (Fin.ext h'.symm)
        rw [if_neg h]
        by_cases h2 : i.val < t.val ∧ row < i
        · rw [if_pos h2, if_pos ⟨by omega, h2.2⟩]
        · rw [if_neg h2, if_neg (by omega)]
    · simp only [Matrix.updateRow_apply, Matrix.of_apply]
      by_cases h : i = t
      · subst h; simp [ht']
      · have : t.val ≠ i.val := fun h' => h (Fin.ext h'.symm)
        rw [if_neg h]
        by_cases h2 : i.val < t.val ∧ row < i
        · rw [if_pos h2, if_pos ⟨by omega, h2.2⟩]
        · rw [if_neg h2, if_neg (by omega)]

theorem solveUpperStep_eq (fl : ℝ → ℝ) (op : ℝ → ℝ → ℝ → ℝ) (row : Fin n) (A : Matrix (Fin n) (Fin n) ℝ) (b : Matrix (Fin n) (Fin m) ℝ)
    (hl : A row row ≠ 0) :
    solveUpperStep fl op row (A, b) = some
      (Matrix.of fun i j => if i = row then fl (A row j / A row row) else if i < row then op (A i j) (A i row) (fl (A row j / A row row)) else A i j,
       Matrix.of fun i j => if i = row then fl (b row j / A row row) else if i < row then op (b i j) (A i row) (fl (b row j / A row row)) else b i j) := by
  unfold solveUpperStep
  simp only [hl, if_false]
  rw [elimDown_eq]
  congr 2
  · ext i j
    simp only [Matrix.of_apply, Matrix.updateRow_apply]
    by_cases h : i = row <;> simp [h]
  · ext i j
    simp only [Matrix.of_apply, Matrix.updateRow_apply]
    by_cases h : i = row <;> simp [h]

theorem solveLowerStep_eq (fl : ℝ → ℝ) (op : ℝ → ℝ → ℝ → ℝ) (row : Fin n) (A : Matrix (Fin n) (Fin n) ℝ) (b : Matrix (Fin n) (Fin m) ℝ)
    (hl : A row row ≠ 0) :
    solveLowerStep fl op row (A, b) = some
      (Matrix.of fun i j => if i = row then fl (A row j / A row row) else if row < i then op (A i j) (A i row) (fl (A row j / A row row)) else A i j,
       Matrix.of fun i j => if i = row then fl (b row j / A row row) else if row < i then op (b i j) (A i row) (fl (b row j / A row row)) else b i j) := by
  unfold solveLowerStep
  simp only [hl, if_false]
  rw [elimUp_eq]
  congr 2
  · ext i j
    simp only [Matrix.of_apply, Matrix.updateRow_apply]
    by_cases h : i = row <;> simp [h]
  · ext i j
    simp only [Matrix.of_apply, Matrix.updateRow_apply]
    by_cases h : i = row <;> simp [h]

/-- State after `t` rows, the rows of `F`, have been solved for. -/
structure TriInv (u : ℝ) (A : Matrix (Fin n) (Fin n) ℝ) (b : Matrix (Fin n) (Fin m) ℝ) (F : Finset (Fin n)) (t : ℕ) (A' : Matrix (Fin n) (Fin n) ℝ)
    (b' : Matrix (Fin n) (Fin m) ℝ) : Prop where
  zero : ∀ i j, i ∉ F → j ∈ F → A' i j = 0
  same : ∀ i j, i ∉ F → j ∉ F → A' i j = A i j
  done : ∀ i j, i ∈ F → |b i j - ∑ q ∈ F, A i q * b' q j| ≤ ((1 / (1 - u)) ^ t - 1) * ∑ q ∈ F, |A i q * b' q j|
  rest : ∀ i j, i ∉ F → |b i j - ∑ q ∈ F, A i q * b' q j - b' i j| ≤ ((1 / (1 - u)) ^ t - 1) * ((∑ q ∈ F, |A i q * b' q j|) + |b' i j|)

theorem TriInv.init (u : ℝ) (A : Matrix (Fin n) (Fin n) ℝ) (b : Matrix (Fin n) (Fin m) ℝ) : TriInv u A b ∅ 0 A b :=
  ⟨fun _ _ _ h => absurd h (Finset.notMem_empty _), fun _ _ _ _ => rfl, fun _ _ h => absurd h (Finset.notMem_empty _), fun i j _ => by simp⟩

theorem TriInv.step {fl : ℝ → ℝ} {u : ℝ} (h : Rounding fl u) (h1 : u < 1) {op : ℝ → ℝ → ℝ → ℝ} (hop : IsMulSub fl op) (f0 : fl 0 = 0) (f1 : fl 1 = 1)
    {A : Matrix (Fin n) (Fin n) ℝ} {b : Matrix (Fin n) (Fin m) ℝ} (hA : ∀ i j, fl (A i j) = A i j) {F : Finset (Fin n)} {t : ℕ}
    {A' : Matrix (Fin n) (Fin n) ℝ} {b' : Matrix (Fin n) (Fin m) ℝ} (inv : TriInv u A b F t A' b') {row : Fin n} (hrow : row ∉ F)
    (hz : ∀ j, j ∉ F → j ≠ row → A row j = 0) (hd : A row row ≠ 0) (hfin : ∀ i ∈ F, A i row = 0)
    {A2 : Matrix (Fin n) (Fin n) ℝ} {b2 : Matrix (Fin n) (Fin m) ℝ}
    (hA2 : ∀ i j, i ∉ F → i ≠ row → A2 i j = op (A' i j) (A' i row) (fl (A' row j / A' row row)))
    (hb2 : ∀ i j, b2 i j = if i = row then fl (b' row j / A' row row) else if i ∈ F then b' i j else op (b' i j) (A' i row) (fl (b' row j / A' row row))) :
    TriInv u A b (insert row F) (t + 1) A2 b2 := by
  have hrr : A' row row = A row row := inv.same row row hrow hrow
  have hn : ∀ j, fl (A' row j / A' row row) = if j = row then 1 else 0 := by
    intro j
    by_cases hj : j = row
    · subst hj; rw [if_pos rfl, hrr, div_self hd, f1]
    · rw [if_neg hj]
      have : A' row j = 0 := by
        by_cases hF : j ∈ F
        · exact inv.zero row j hrow hF
        · rw [inv.same row j hrow hF]; exact hz j hF hj
      rw [this, zero_div, f0]
  have hsame : ∀ i, i ∈ F → ∀ j, b2 i j = b' i j := fun i hi j => by
    rw [hb2, if_neg (fun e : i = row => hrow (e ▸ hi)), if_pos hi]
  have hsum : ∀ (i : Fin n) (j : Fin m), ∑ q ∈ insert row F, A i q * b2 q j = A i row * b2 row j + ∑ q ∈ F, A i q * b' q j := fun i j => by
    rw [Finset.sum_insert hrow]
    congr 1
    exact Finset.sum_congr rfl fun q hq => by rw [hsame q hq]
  have hasum : ∀ (i : Fin n) (j : Fin m), ∑ q ∈ insert row F, |A i q * b2 q j| = |A i row * b2 row j| + ∑ q ∈ F, |A i q * b' q j| := fun i j => by
    rw [Finset.sum_insert hrow]
    congr 1
    exact Finset.sum_congr rfl fun q hq => by rw [hsame q hq]
  have hS : ∀ (i : Fin n) (j : Fin m), 0 ≤ ∑ q ∈ F, |A i q * b' q j| := fun i j => Finset.sum_nonneg fun _ _ => abs_nonneg _
  have hG := growth_nonneg h.u_nonneg h1 t
  refine ⟨fun i j hi hj => ?_, fun i j hi hj => ?_, fun i j hi => ?_, fun i j hi => ?_⟩
  · rw [Finset.mem_insert, not_or] at hi
    rw [hA2 i j hi.2 hi.1, hn]
    by_cases hjr : j = row
    · subst hjr
      rw [if_pos rfl]
      exact hop.self f0 (by rw [inv.same i j hi.2 hrow]; exact hA i j)
    · rw [if_neg hjr]
      have hjF := (Finset.mem_insert.1 hj).resolve_left hjr
      rw [hop.zero_right f0 (by rw [inv.zero i j hi.2 hjF]; exact f0)]
      exact inv.zero i j hi.2 hjF
  · rw [Finset.mem_insert, not_or] at hi hj
    rw [hA2 i j hi.2 hi.1, hn, if_neg hj.1, hop.zero_right f0 (by rw [inv.same i j hi.2 hj.2]; exact hA i j)]
    exact inv.same i j hi.2 hj.2
  · rw [hsum, hasum]
    by_cases hir : i = row
    · subst hir
      have e := inv.rest i j hrow
      have hb : b2 i j = fl (b' i j / A i i) := by rw [hb2, if_pos rfl, hrr]
      have d := div_bound h h1 hG (hS i j) (b' i j) hd
      rw [← growth_succ, ← hb] at d
      have tri := abs_add_le (b i j - ∑ q ∈ F, A i q * b' q j - b' i j) (b' i j - A i i * b2 i j)
      have e2 : b i j - ∑ q ∈ F, A i q * b' q j - b' i j + (b' i j - A i i * b2 i j) = b i j - (A i i * b2 i j + ∑ q ∈ F, A i q * b' q j) := by ring
      rw [e2] at tri
      linarith
    · have hiF := (Finset.mem_insert.1 hi).resolve_left hir
      rw [hfin i hiF]
      simp only [zero_mul, abs_zero, zero_add]
      exact (inv.done i j hiF).trans (mul_le_mul_of_nonneg_right (growth_mono h.u_nonneg h1 (Nat.le_succ t)) (hS i j))
  · rw [Finset.mem_insert, not_or] at hi
    rw [hsum, hasum]
    have e := inv.rest i j hi.2
    have hbr : b2 row j = fl (b' row j / A' row row) := by rw [hb2, if_pos rfl]
    have hb : b2 i j = op (b' i j) (A i row) (b2 row j) := by
      rw [hb2 i j, if_neg hi.1, if_neg hi.2, hbr, inv.same i row hi.2 hrow]
    have d := step_bound h h1 hop hG (hS i j) (b' i j) (A i row) (b2 row j)
    rw [← growth_succ, ← hb] at d
    have tri := abs_add_le (b i j - ∑ q ∈ F, A i q * b' q j - b' i j) (b' i j - A i row * b2 row j - b2 i j)
    have e2 : b i j - ∑ q ∈ F, A i q * b' q j - b' i j + (b' i j - A i row * b2 row j - b2 i j)
        = b i j - (A i row * b2 row j + ∑ q ∈ F, A i q * b' q j) - b2 i j := by ring
    rw [e2] at tri
    have e3 : |A i row * b2 row j| + ∑ q ∈ F, |A i q * b' q j| = ∑ q ∈ F, |A i q * b' q j| + |A i row * b2 row j| := add_comm _ _
    rw [e3]
    linarith

/-- A componentwise small residual is a componentwise small perturbation of the matrix. -/
theorem perturb {A : Matrix (Fin n) (Fin m) ℝ} {x : Fin m → ℝ} {b : Fin n → ℝ} {g : ℝ} (hg : 0 ≤ g)
    (h : ∀ i, |b i - ∑ q, A i q * x q| ≤ g * ∑ q, |A i q * x q|) :
    ∃ D : Matrix (Fin n) (Fin m) ℝ, (∀ i j, |D i j| ≤ g * |A i j|) ∧ (A + D).mulVec x = b := by
  have key : ∀ i, ∃ D : Fin m → ℝ, (∀ j, |D j| ≤ g * |A i j|) ∧ ∑ q, (A i q + D q) * x q = b i := by
    intro i
    set S := ∑ q, |A i q * x q| with hS
    set R := b i - ∑ q, A i q * x q with hR
    have hS0 : 0 ≤ S := Finset.sum_nonneg fun _ _ => abs_nonneg _
    have hi : |R| ≤ g * S := h i
    rcases hS0.lt_or_eq with hpos | hzero
    · have hrs : |R / S| ≤ g := by rw [abs_div, abs_of_pos hpos, div_le_iff₀ hpos]; exact hi
      refine ⟨fun q => R / S * (SignType.sign (A i q * x q) : ℝ) * A i q, fun j => ?_, ?_⟩
      · rw [abs_mul, abs_mul]
        have hs : |(SignType.sign (A i j * x j) : ℝ)| ≤ 1 := by
          rcases lt_trichotomy (A i j * x j) 0 with hh | hh | hh
          · rw [sign_neg hh]; simp
          · rw [hh, sign_zero]; simp
          · rw [sign_pos hh]; simp
        have : |R / S| * |(SignType.sign (A i j * x j) : ℝ)| ≤ g * 1 := mul_le_mul hrs hs (abs_nonneg _) hg
        rw [mul_one] at this
        exact mul_le_mul_of_nonneg_right this (abs_nonneg _)
      · have e : ∀ q, (A i q + R / S * (SignType.sign (A i q * x q) : ℝ) * A i q) * x q = A i q * x q + R / S * |A i q * x q| := fun q => by
          rw [← sign_mul_self (A i q * x q)]; ring
        simp only [e, Finset.sum_add_distrib, ← Finset.mul_sum]
        rw [← hS, div_mul_cancel₀ _ hpos.ne', hR]; ring
    · rw [← hzero, mul_zero] at hi
      have hR0 : R = 0 := abs_eq_zero.1 (le_antisymm hi (abs_nonneg _))
      exact ⟨fun _ => 0, fun j => by rw [abs_zero]; exact mul_nonneg hg (abs_nonneg _), by simp only [add_zero]; linarith⟩
  choose D h1 h2 using key
  exact ⟨Matrix.of D, h1, by ext i; simpa [Matrix.mulVec, dotProduct] using h2 i⟩

theorem solveUpper_residual {fl : ℝ → ℝ} {u : ℝ} (h : Rounding fl u) (h1 : u < 1) {op : ℝ → ℝ → ℝ → ℝ} (hop : IsMulSub fl op) (f0 : fl 0 = 0)
    (f1 : fl 1 = 1) (A : Matrix (Fin n) (Fin n) ℝ) (b : Matrix (Fin n) (Fin m) ℝ) (hA : ∀ i j, fl (A i j) = A i j) (ht : ∀ i j, j < i → A i j = 0)
    (hd : ∀ i, A i i ≠ 0) :
    ∃ X, solveUpper fl op A b = some X ∧ ∀ i j, |b i j - ∑ q, A i q * X q j| ≤ ((1 / (1 - u)) ^ n - 1) * ∑ q, |A i q * X q j| := by
  have := forDown_inv (n := n) (body := fun row (s : Option (Matrix (Fin n) (Fin n) ℝ × Matrix (Fin n) (Fin m) ℝ)) => s.bind (solveUpperStep fl op row))
    (s := some (A, b))
    (fun k s => ∃ A' b', s = some (A', b') ∧ TriInv u A b (Finset.univ.filter fun i => k ≤ i.val) (n - k) A' b') ?_ ?_
  · obtain ⟨A', b', e, inv⟩ := this
    refine ⟨b', by unfold solveUpper; rw [e]; rfl, fun i j => ?_⟩
    simpa using inv.done i j (by simp)
  · refine ⟨A, b, rfl, ?_⟩
    have e : (Finset.univ.filter fun i : Fin n => n ≤ i.val) = ∅ := by
      ext i; simp [i.isLt]
    rw [e, Nat.sub_self]
    exact TriInv.init u A b
  · rintro row _ ⟨A', b', rfl, inv⟩
    have hr : row ∉ Finset.univ.filter fun i : Fin n => row.val + 1 ≤ i.val := by simp
    have hrr : A' row row = A row row := inv.same row row hr hr
    rw [Option.bind_some, solveUpperStep_eq fl op row A' b' (by rw [hrr]; exact hd row)]
    refine ⟨_, _, rfl, ?_⟩
    have e : (Finset.univ.filter fun i : Fin n => row.val ≤ i.val) = insert row (Finset.univ.filter fun i : Fin n => row.val + 1 ≤ i.val) := by
      ext i
      simp only [Finset.mem_filter, Finset.mem_univ, true_and, Finset.mem_insert, Fin.ext_iff]
      omega
    have e2 : n - row.val = n - (row.val + 1) + 1 := by have := row.isLt; omega
    rw [e, e2]
    refine inv.step h h1 hop f0 f1 hA hr (fun j hj hjr => ht row j ?_) (hd row) (fun i hi => ht i row ?_) (fun i j hi hir => ?_) (fun i j => ?_)
    · simp only [Finset.mem_filter, Finset.mem_univ, true_and, not_le] at hj
      have : j.val ≠ row.val := fun hh => hjr (Fin.ext hh)
      rw [Fin.lt_def]; omega
    · simp only [Finset.mem_filter, Finset.mem_univ, true_and] at hi
      rw [Fin.lt_def]; omega
    · simp only [Finset.mem_filter, Finset.mem_univ, true_and, not_le] at hi
      have : i.val ≠ row.val := fun hh => hir (Fin.ext hh)
      rw [Matrix.of_apply, if_neg hir, if_pos (by rw [Fin.lt_def]; omega)]
    · rw [Matrix.of_apply]
      by_cases hir : i = row
      · rw [if_pos hir, if_pos hir]
      · have : i.val ≠ row.val := fun hh => hir (Fin.ext hh)
        rw [if_neg hir, if_neg hir]
        by_cases hi : i < row
        · rw [if_pos hi, if_neg (by simp only [Finset.mem_filter, Finset.mem_univ, true_and]; rw [Fin.lt_def] at hi; omega)]
        · rw [if_neg hi, if_pos (by simp only [Finset.mem_filter, Finset.mem_univ, true_and]; rw [Fin.lt_def] at hi; omega)]

theorem solveLower_residual {fl : ℝ → ℝ} {u : ℝ} (h : Rounding fl u) (h1 : u < 1) {op : ℝ → ℝ → ℝ → ℝ} (hop : IsMulSub fl op) (f0 : fl 0 = 0)
    (f1 : fl 1 = 1) (A : Matrix (Fin n) (Fin n) ℝ) (b : Matrix (Fin n) (Fin m) ℝ) (hA : ∀ i j, fl (A i j) = A i j) (ht : ∀ i j, i < j → A i j = 0)
    (hd : ∀ i, A i i ≠ 0) :
    ∃ X, solveLower fl op A b = some X ∧ ∀ i j, |b i j - ∑ q, A i q * X q j| ≤ ((1 / (1 - u)) ^ n - 1) * ∑ q, |A i q * X q j| := by
  have := forUp_inv (n := n) (lo := 0)
    (body := fun row (s : Option (Matrix (Fin n) (Fin n) ℝ × Matrix (Fin n) (Fin m) ℝ)) => s.bind (solveLowerStep fl op row)) (s := some (A, b))
    (fun k s => ∃ A' b', s = some (A', b') ∧ TriInv u A b (Finset.univ.filter fun i => i.val < k) k A' b') (Nat.zero_le _) ?_ ?_
  · obtain ⟨A', b', e, inv⟩ := this
    refine ⟨b', by unfold solveLower; rw [e]; rfl, fun i j => ?_⟩
    simpa using inv.done i j (by simp)
  · refine ⟨A, b, rfl, ?_⟩
    have e : (Finset.univ.filter fun i : Fin n => i.val < 0) = ∅ := by
      ext i; simp
    rw [e]
    exact TriInv.init u A b
  · rintro row _ _ ⟨A', b', rfl, inv⟩
    have hr : row ∉ Finset.univ.filter fun i : Fin n => i.val < row.val := by simp
    have hrr : A' row row = A row row := inv.same row row hr hr
    rw [Option.bind_some, solveLowerStep_eq fl op row A' b' (by rw [hrr]; exact hd row)]
    refine ⟨_, _, rfl, ?_⟩
    have e : (Finset.univ.filter fun i : Fin n => i.val < row.val + 1) = insert row (Finset.univ.filter fun i : Fin n => i.val < row.val) := by
      ext i
      simp only [Finset.mem_filter, Finset.mem_univ, true_and, Finset.mem_insert, Fin.ext_iff]
      omega
    rw [e]
    refine inv.step h h1 hop f0 f1 hA hr (fun j hj hjr => ht row j ?_) (hd row) (fun i hi => ht i row ?_) (fun i j hi hir => ?_) (fun i j => ?_)
    · simp only [Finset.mem_filter, Finset.mem_univ, true_and, not_lt] at hj
      have : j.val ≠ row.val := fun hh => hjr (Fin.ext hh)
      rw [Fin.lt_def]; omega
    · simp only [Finset.mem_filter, Finset.mem_univ, true_and] at hi
      rw [Fin.lt_def]; omega
    · simp only [Finset.mem_filter, Finset.mem_univ, true_and, not_lt] at hi
      have : i.val ≠ row.val := fun hh => hir (Fin.ext hh)
      rw [Matrix.of_apply, if_neg hir, if_pos (by rw [Fin.lt_def]; omega)]
    · rw [Matrix.of_apply]
      by_cases hir : i = row
      · rw [if_pos hir, if_pos hir]
      · have : i.val ≠ row.val := fun hh => hir (Fin.ext hh)
        rw [if_neg hir, if_neg hir]
        by_cases hi : row < i
        · rw [if_pos hi, if_neg (by simp only [Finset.mem_filter, Finset.mem_univ, true_and]; rw [Fin.lt_def] at hi; omega)]
        · rw [if_neg hi, if_pos (by simp only [Finset.mem_filter, Finset.mem_univ, true_and]; rw [Fin.lt_def] at hi; omega)]

/-! ## LU -/

theorem luElim_loop (fl : ℝ → ℝ) (op : ℝ → ℝ → ℝ → ℝ) (col : Fin n) (pr : Fin n → ℝ) (s : LU ℝ n) :
    forUp n (col.val + 1) (fun row => luElim fl op col row pr) s
      = ⟨Matrix.of fun i j => if col < i ∧ j = col then fl (s.U i col / pr col) else s.L i j,
         Matrix.of fun i j => if col < i then (if j = col then 0 else op (s.U i j) (pr j) (fl (s.U i col / pr col))) else s.U i j⟩ := by
  have := forUp_inv (n := n) (lo := col.val + 1) (body := fun row => luElim fl op col row pr) (s := s)
    (fun k s' => s' = ⟨Matrix.of fun i j => if (i.val < k ∧ col < i) ∧ j = col then fl (s.U i col / pr col) else s.L i j,
         Matrix.of fun i j => if i.val < k ∧ col < i then (if j = col then 0 else op (s.U i j) (pr j) (fl (s.U i col / pr col))) else s.U i j⟩)
      (by omega) ?_ ?_
  · rw [this]; simp
  · cases s with
    | mk L U =>
      rw [LU.mk.injEq]
      constructor
      · ext i j; simp only [Matrix.of_apply]; rw [if_neg (by omega)]
      · ext i j; simp only [Matrix.of_apply]; rw [if_neg (by omega)]
  · rintro t _ ht rfl
    have ht' : col < t := ht
    simp only [luElim]
    rw [LU.mk.injEq]
    constructor
    · ext i j
      simp only [Matrix.of_apply]
      by_cases h : i = t
      · subst h; simp [ht']
      · have : t.val ≠ i.val := fun h' => h (Fin.ext h'.symm)
        have e : (i.val < t.val + 1 ∧ col < i) ↔ (i.val < t.val ∧ col < i) := by omega
        simp only [h, false_and, if_false, e]
    · ext i j
      simp only [Matrix.of_apply, Matrix.updateRow_apply]
      by_cases h : i = t
      · subst h; simp [ht']
      · have : t.val ≠ i.val := fun h' => h (Fin.ext h'.symm)
        have e : (i.val < t.val + 1 ∧ col < i) ↔ (i.val < t.val ∧ col < i) := by omega
        simp only [h, false_and, if_false, e]

end Mathter.Fl

namespace Mathter
variable {n : ℕ}

private theorem sum_succ_split' {K : Type*} [Field K] (f : Fin n → K) (i col : Fin n) :
    (∑ q : Fin n, if q.val < col.val + 1 ∧ q < i then f q else 0)
      = (∑ q : Fin n, if q.val < col.val ∧ q < i then f q else 0) + (if col < i then f col else 0) := by
  have : ∀ q : Fin n, (if q.val < col.val + 1 ∧ q < i then f q else 0)
      = (if q.val < col.val ∧ q < i then f q else 0) + (if q = col then (if col < i then f col else 0) else 0) := by
    intro q
    by_cases h : q = col
    · subst h; simp
    · have : q.val ≠ col.val := fun h' => h (Fin.ext h')
      have e : (q.val < col.val + 1) ↔ q.val < col.val := by omega
      simp [h, e]
  simp only [this, Finset.sum_add_distrib]
  simp

/-- Whatever multipliers `s` and rows `V` an elimination step writes below the pivot, the product of the factors changes accordingly. -/
theorem LUInv.write {K : Type*} [Field K] {M L U : Matrix (Fin n) (Fin n) K} {col : Fin n} (h : LUInv M L U col.val) (s : Fin n → K)
    (V : Matrix (Fin n) (Fin n) K) (hV : ∀ i j, col < i → j ≤ col → V i j = 0) :
    LUInv (Matrix.of fun i j => if col < i then M i j - U i j + s i * U col j + V i j else M i j)
      (Matrix.of fun i j => if col < i ∧ j = col then s i else L i j) (Matrix.of fun i j => if col < i then V i j else U i j) (col.val + 1) := by
  refine ⟨fun i => ?_, fun i j hij hj => ?_, fun i j hj hji => ?_, fun i j => ?_⟩
  · simp only [Matrix.of_apply]
    rw [if_neg (by rintro ⟨h1, h2⟩; subst h2; exact lt_irrefl _ h1)]
    exact h.diag i
  · simp only [Matrix.of_apply]
    rw [if_neg (by rintro ⟨h1, h2⟩; subst h2; rcases hj with hj | hj <;> [exact absurd hj (not_lt.2 h1.le); omega])]
    exact h.zero i j hij (by rcases hj with hj | hj <;> [exact Or.inl hj; exact Or.inr (by omega)])
  · simp only [Matrix.of_apply]
    by_cases hc : col < i
    · rw [if_pos hc]; exact hV i j hc (by rw [Fin.le_def]; omega)
    · rw [if_neg hc]
      have : j.val < col.val := by rw [Fin.lt_def] at hji hc; omega
      exact h.low i j this hji
  · have e1 := h.eq i j
    simp only [Matrix.of_apply]
    rw [sum_succ_split' (fun q => (if col < i ∧ q = col then s i else L i q) * (if col < q then V q j else U q j)) i col]
    have e2 : (∑ q : Fin n, if q.val < col.val ∧ q < i then (if col < i ∧ q = col then s i else L i q) * (if col < q then V q j else U q j) else 0)
        = ∑ q : Fin n, if q.val < col.val ∧ q < i then L i q * U q j else 0 := by
      apply Finset.sum_congr rfl
      intro q _
      by_cases hq : q.val < col.val ∧ q < i
      · rw [if_pos hq, if_pos hq, if_neg (by rintro ⟨_, rfl⟩; omega), if_neg (by rw [Fin.lt_def]; omega)]
      · rw [if_neg hq, if_neg hq]
    rw [e2]
    by_cases hc : col < i
    · simp only [hc, true_and, if_true, if_neg (lt_irrefl col)]
      rw [e1]; ring
    · simp only [hc, if_false, add_zero]
      rw [e1]

end Mathter

namespace Mathter.Fl
variable {n m : ℕ}

/-- State of the rounded elimination before column `k`, for the matrix `A` with its rows permuted so far. -/
structure FLU (fl : ℝ → ℝ) (u : ℝ) (A L U : Matrix (Fin n) (Fin n) ℝ) (k : ℕ) : Prop where
  fixL : ∀ i j, fl (L i j) = L i j
  fixU : ∀ i j, fl (U i j) = U i j
  lu : ∃ M B : Matrix (Fin n) (Fin n) ℝ, LUInv M L U k ∧ LUInv B (L.map fun x => |x|) (U.map fun x => |x|) k ∧
    ∀ i j, |M i j - A i j| ≤ ((1 / (1 - u)) ^ k - 1) * B i j

theorem FLU.init {fl : ℝ → ℝ} (u : ℝ) (f0 : fl 0 = 0) (f1 : fl 1 = 1) {A : Matrix (Fin n) (Fin n) ℝ} (hA : ∀ i j, fl (A i j) = A i j) : FLU fl u A 1 A 0 := by
  refine ⟨fun i j => ?_, hA, A, A.map fun x => |x|, LUInv.init A, ?_, fun i j => by simp⟩
  · rw [Matrix.one_apply]; split <;> assumption
  · have e : ((1 : Matrix (Fin n) (Fin n) ℝ).map fun x => |x|) = 1 := by
      ext i j
      rw [Matrix.map_apply, Matrix.one_apply]; split <;> simp
    rw [e]
    exact LUInv.init _

private theorem lu_nonneg {B L U : Matrix (Fin n) (Fin n) ℝ} {k : ℕ} (h : LUInv B (L.map fun x => |x|) (U.map fun x => |x|) k) (i j : Fin n) :
    0 ≤ B i j - |U i j| := by
  rw [h.eq i j]
  simp only [Matrix.map_apply, add_sub_cancel_right]
  apply Finset.sum_nonneg
  intro q _
  split
  · exact mul_nonneg (abs_nonneg _) (abs_nonneg _)
  · exact le_rfl

theorem FLU.skip {fl : ℝ → ℝ} {u : ℝ} (h0 : 0 ≤ u) (h1 : u < 1) {A L U : Matrix (Fin n) (Fin n) ℝ} {col : Fin n} (h : FLU fl u A L U col.val)
    (hz : ∀ i, col ≤ i → U i col = 0) : FLU fl u A L U (col.val + 1) := by
  obtain ⟨M, B, hM, hB, hb⟩ := h.lu
  refine ⟨h.fixL, h.fixU, M, B, hM.skip hz, hB.skip fun i hi => by rw [Matrix.map_apply, hz i hi, abs_zero], fun i j => (hb i j).trans ?_⟩
  have := lu_nonneg hB i j
  exact mul_le_mul_of_nonneg_right (growth_mono h0 h1 (Nat.le_succ _)) (by linarith [abs_nonneg (U i j)])

theorem FLU.swap {fl : ℝ → ℝ} {u : ℝ} {A L U : Matrix (Fin n) (Fin n) ℝ} {col piv : Fin n} (h : FLU fl u A L U col.val) (hp : col ≤ piv) :
    FLU fl u (Matrix.of fun i j => A (Equiv.swap col piv i) j)
      (Matrix.of fun i j => if j.val < col.val then L (Equiv.swap col piv i) j else L i j)
      (Matrix.of fun i j => U (Equiv.swap col piv i) j) col.val := by
  obtain ⟨M, B, hM, hB, hb⟩ := h.lu
  refine ⟨fun i j => ?_, fun i j => h.fixU _ _, _, Matrix.of fun i j => B (Equiv.swap col piv i) j, hM.swap hp, ?_,
    fun i j => hb (Equiv.swap col piv i) j⟩
  · simp only [Matrix.of_apply]; split <;> exact h.fixL _ _
  · have := hB.swap hp
    have e : (Matrix.of fun i j => if j.val < col.val then L (Equiv.swap col piv i) j else L i j).map (fun x => |x|)
        = Matrix.of fun i j => if j.val < col.val then (L.map fun x => |x|) (Equiv.swap col piv i) j else (L.map fun x => |x|) i j := by
      ext i j
      simp only [Matrix.map_apply, Matrix.of_apply]
      split <;> rfl
    rw [e]
    exact this

theorem FLU.step {fl : ℝ → ℝ} {u : ℝ} (hr : Rounding fl u) (h1 : u < 1) {op : ℝ → ℝ → ℝ → ℝ} (hop : IsMulSub fl op) (f0 : fl 0 = 0)
    {A L U : Matrix (Fin n) (Fin n) ℝ} {col : Fin n} (h : FLU fl u A L U col.val) (hp : U col col ≠ 0) :
    FLU fl u A (Matrix.of fun i j => if col < i ∧ j = col then fl (U i col / U col col) else L i j)
      (Matrix.of fun i j => if col < i then (if j = col then 0 else op (U i j) (U col j) (fl (U i col / U col col))) else U i j) (col.val + 1) := by
  obtain ⟨M, B, hM, hB, hb⟩ := h.lu
  set s : Fin n → ℝ := fun i => fl (U i col / U col col) with hs
  set V : Matrix (Fin n) (Fin n) ℝ := fun i j => if j = col then 0 else op (U i j) (U col j) (s i) with hV
  have hV0 : ∀ i j, col < i → j ≤ col → V i j = 0 := by
    intro i j hi hj
    simp only [hV]
    by_cases hjc : j = col
    · rw [if_pos hjc]
    · have : j.val ≠ col.val := fun h' => hjc (Fin.ext h')
      rw [Fin.le_def] at hj
      have z1 : U i j = 0 := hM.low i j (by omega) (by rw [Fin.lt_def] at hi ⊢; omega)
      have z2 : U col j = 0 := hM.low col j (by omega) (by rw [Fin.lt_def]; omega)
      rw [if_neg hjc, z1, z2]
      exact hop.zero_left f0 f0 _
  have hV1 : ∀ i j, fl (V i j) = V i j := by
    intro i j
    simp only [hV]
    split
    · exact f0
    · exact hop.rounded hr.idem _ _ _
  refine ⟨fun i j => ?_, fun i j => ?_, _,
    Matrix.of fun i j => if col < i then B i j - |U i j| + |s i| * |U col j| + |V i j| else B i j, hM.write s V hV0, ?_, fun i j => ?_⟩
  · simp only [Matrix.of_apply]
    split
    · exact hr.idem _
    · exact h.fixL _ _
  · simp only [Matrix.of_apply]
    split
    · exact hV1 i j
    · exact h.fixU _ _
  · have := hB.write (fun i => |s i|) (V.map fun x => |x|) (fun i j hi hj => by rw [Matrix.map_apply, hV0 i j hi hj, abs_zero])
    have e1 : (Matrix.of fun i j => if col < i ∧ j = col then s i else L i j).map (fun x => |x|)
        = Matrix.of fun i j => if col < i ∧ j = col then |s i| else (L.map fun x => |x|) i j := by
      ext i j
      simp only [Matrix.map_apply, Matrix.of_apply]
      split <;> rfl
    have e2 : (Matrix.of fun i j => if col < i then V i j else U i j).map (fun x => |x|)
        = Matrix.of fun i j => if col < i then (V.map fun x => |x|) i j else (U.map fun x => |x|) i j := by
      ext i j
      simp only [Matrix.map_apply, Matrix.of_apply]
      split <;> rfl
    rw [← e1, ← e2] at this
    exact this
  · have hS := lu_nonneg hB i j
    have hG := growth_nonneg hr.u_nonneg h1 col.val
    have e := hb i j
    simp only [Matrix.of_apply]
    by_cases hi : col < i
    · rw [if_pos hi, if_pos hi]
      have key : ((1 / (1 - u)) ^ col.val - 1) * ((B i j - |U i j|) + |U i j|) + |U i j - s i * U col j - V i j|
          ≤ ((1 / (1 - u)) ^ (col.val + 1) - 1) * ((B i j - |U i j|) + |s i * U col j| + |V i j|) := by
        by_cases hj : j = col
        · subst hj
          have d := div_bound hr h1 hG hS (U i j) hp
          rw [← growth_succ] at d
          have hv : V i j = 0 := hV0 i j hi le_rfl
          rw [hv, abs_zero, add_zero, sub_zero, mul_comm (s i)]
          exact d
        · have d := step_bound hr h1 hop hG hS (U i j) (U col j) (s i)
          rw [← growth_succ] at d
          have hv : V i j = op (U i j) (U col j) (s i) := by simp only [hV]; rw [if_neg hj]
          rw [hv, mul_comm (s i)]
          exact d
      have tri := abs_add_le (M i j - A i j) (-(U i j - s i * U col j - V i j))
      rw [abs_neg] at tri
      have e2 : M i j - A i j + -(U i j - s i * U col j - V i j) = M i j - U i j + s i * U col j + V i j - A i j := by ring
      rw [e2] at tri
      rw [abs_mul] at key
      rw [sub_add_cancel] at key
      linarith
    · rw [if_neg hi, if_neg hi]
      exact e.trans (mul_le_mul_of_nonneg_right (growth_mono hr.u_nonneg h1 (Nat.le_succ _)) (by linarith [abs_nonneg (U i j)]))

/-- At the end of the loop: the residual of the factorisation. -/
theorem FLU.final {fl : ℝ → ℝ} {u : ℝ} {A L U : Matrix (Fin (n + 1)) (Fin (n + 1)) ℝ} (h : FLU fl u A L U n) :
    (∀ i, L i i = 1) ∧ (∀ i j, i < j → L i j = 0) ∧ (∀ i j, j < i → U i j = 0) ∧
    ∀ i j, |(L * U) i j - A i j| ≤ ((1 / (1 - u)) ^ n - 1) * ∑ q, |L i q| * |U q j| := by
  obtain ⟨M, B, hM, hB, hb⟩ := h.lu
  obtain ⟨a1, a2, a3⟩ := hM.final
  obtain ⟨-, -, b3⟩ := hB.final
  refine ⟨hM.diag, a1, a2, fun i j => ?_⟩
  have := hb i j
  rw [← a3, ← b3] at this
  exact this

/-- The loop of `DecomposeLU`, when it meets no zero pivot. -/
theorem decomposeLU_inv {fl : ℝ → ℝ} {u : ℝ} (hr : Rounding fl u) (h1 : u < 1) {op : ℝ → ℝ → ℝ → ℝ} (hop : IsMulSub fl op) (f0 : fl 0 = 0) (f1 : fl 1 = 1)
    {A : Matrix (Fin (n + 1)) (Fin (n + 1)) ℝ} (hA : ∀ i j, fl (A i j) = A i j) {d : LU ℝ (n + 1)} (hd : decomposeLU fl op A = some d) :
    FLU fl u A d.L d.U n := by
  classical
  have := forUp_inv (n := n) (lo := 0) (body := fun col (s : Option (LU ℝ (n + 1))) => s.bind fun s =>
    let pivotRow := s.U col.castSucc
    if pivotRow col.castSucc = 0 then none
    else some (forUp (n + 1) (col.val + 1) (fun row => luElim fl op col.castSucc row pivotRow) s)) (s := some ⟨1, A⟩)
    (fun k s => ∀ d, s = some d → FLU fl u A d.L d.U k) (Nat.zero_le _) ?_ ?_
  · exact this d (by rw [← hd]; unfold decomposeLU; congr 1)
  · rintro d he
    cases he
    exact FLU.init u f0 f1 hA
  · rintro col s - ih d he
    rcases s with _ | s
    · simp at he
    · rw [Option.bind_some] at he
      by_cases hp : s.U col.castSucc col.castSucc = 0
      · simp only [hp, if_true] at he; cases he
      · simp only [hp, if_false] at he
        cases he
        rw [show col.val + 1 = col.castSucc.val + 1 from rfl, luElim_loop]
        exact (ih s rfl).step (col := col.castSucc) hr h1 hop f0 hp

/-- State of the rounded LUP loop. -/
structure FLUP (fl : ℝ → ℝ) (u : ℝ) (A : Matrix (Fin n) (Fin n) ℝ) (d : LUP ℝ n) (k : ℕ) : Prop where
  inj : Function.Injective d.P
  lu : FLU fl u (Matrix.of fun i j => A (d.P i) j) d.L d.U k
  bound : ∀ i j, |d.L i j| ≤ 1

theorem FLUP.step {fl : ℝ → ℝ} {u : ℝ} (hr : Rounding fl u) (h1 : u < 1) {op : ℝ → ℝ → ℝ → ℝ} (hop : IsMulSub fl op) (f0 : fl 0 = 0)
    (hone : ∀ x, |x| ≤ 1 → |fl x| ≤ 1) {A : Matrix (Fin n) (Fin n) ℝ} {d : LUP ℝ n} {col : Fin n} (h : FLUP fl u A d col.val) :
    FLUP fl u A (lupStep fl op col d) (col.val + 1) := by
  obtain ⟨hge, hmax⟩ := maxElementIdx_spec (fun i => |d.U i col|) col
  set piv := maxElementIdx (fun i => |d.U i col|) col with hpiv
  clear_value piv
  unfold lupStep
  simp only
  rw [← hpiv]
  by_cases hp : d.U piv col ≠ 0
  · rw [if_pos hp, swapL_loop, luElim_loop]
    have hU : (d.U.updateRow piv (d.U col)).updateRow col (d.U piv) = Matrix.of fun i j => d.U (Equiv.swap col piv i) j := by
      ext i j
      simp only [Matrix.updateRow_apply, Matrix.of_apply]
      by_cases h1 : i = col
      · simp [h1]
      · by_cases h2 : i = piv
        · simp [h2]
          intro h3; rw [h3]
        · simp [h1, h2, Equiv.swap_apply_of_ne_of_ne h1 h2]
    have hP : (fun i => if i = piv then d.P col else if i = col then d.P piv else d.P i) = fun i => d.P (Equiv.swap col piv i) := by
      funext i
      by_cases h2 : i = piv
      · simp [h2]
      · by_cases h1 : i = col
        · subst h1; rw [if_neg h2, if_pos rfl, Equiv.swap_apply_left]
        · simp [h1, h2, Equiv.swap_apply_of_ne_of_ne h1 h2]
    rw [hU, hP]
    have hsw := h.lu.swap hge
    have hpv : (Matrix.of fun i j => d.U (Equiv.swap col piv i) j : Matrix (Fin n) (Fin n) ℝ) col col ≠ 0 := by simpa using hp
    have hst := hsw.step hr h1 hop f0 hpv
    refine ⟨fun a b hab => (Equiv.swap col piv).injective (h.inj hab), ?_, ?_⟩
    · simpa using hst
    · intro i j
      simp only [Matrix.of_apply]
      split
      · rename_i hc
        apply hone
        rw [abs_div]
        apply div_le_one_of_le₀ _ (abs_nonneg _)
        apply hmax
        by_cases h2 : i = piv
        · rw [h2, Equiv.swap_apply_right]
        · rw [Equiv.swap_apply_of_ne_of_ne (ne_of_gt hc.1) h2]; exact hc.1.le
      · split <;> exact h.bound _ _
  · rw [if_neg hp]
    push Not at hp
    refine ⟨h.inj, h.lu.skip hr.u_nonneg h1 fun i hi => ?_, h.bound⟩
    have := hmax i hi
    simp only [hp, abs_zero] at this
    exact abs_nonpos_iff.1 this

theorem decomposeLUP_inv {fl : ℝ → ℝ} {u : ℝ} (hr : Rounding fl u) (h1 : u < 1) {op : ℝ → ℝ → ℝ → ℝ} (hop : IsMulSub fl op) (f0 : fl 0 = 0) (f1 : fl 1 = 1)
    (hone : ∀ x, |x| ≤ 1 → |fl x| ≤ 1) {A : Matrix (Fin (n + 1)) (Fin (n + 1)) ℝ} (hA : ∀ i j, fl (A i j) = A i j) :
    FLUP fl u A (decomposeLUP fl op A) n :=
  forUp_inv (n := n) (lo := 0) (body := fun col => lupStep fl op col.castSucc) (s := (⟨1, A, id⟩ : LUP ℝ (n + 1)))
    (fun k s => FLUP fl u A s k) (Nat.zero_le _)
    ⟨Function.injective_id, FLU.init u f0 f1 hA, fun i j => by
      show |(1 : Matrix (Fin (n + 1)) (Fin (n + 1)) ℝ) i j| ≤ 1
      rw [Matrix.one_apply]; split <;> simp⟩
    (fun _ _ _ h => FLUP.step hr h1 hop f0 hone h)

private theorem compose_arith {g l dl v dv : ℝ} (hdl : |dl| ≤ g * |l|) (hdv : |dv| ≤ g * |v|) :
    |(l + dl) * (v + dv) - l * v| ≤ ((1 + g) ^ 2 - 1) * (|l| * |v|) := by
  have e : (l + dl) * (v + dv) - l * v = l * dv + dl * v + dl * dv := by ring
  rw [e]
  have t1 := abs_add_le (l * dv + dl * v) (dl * dv)
  have t2 := abs_add_le (l * dv) (dl * v)
  rw [abs_mul, abs_mul] at t2
  rw [abs_mul] at t1
  have h1 := mul_le_mul_of_nonneg_left hdv (abs_nonneg l)
  have h2 := mul_le_mul_of_nonneg_right hdl (abs_nonneg v)
  have h3 := mul_le_mul hdl hdv (abs_nonneg _) (le_trans (abs_nonneg _) hdl)
  nlinarith

/-- Solving with perturbed factors is solving with one perturbed matrix. -/
theorem compose {u : ℝ} (h0 : 0 ≤ u) (h1 : u < 1) {k t : ℕ} {A L U DL DU : Matrix (Fin n) (Fin n) ℝ}
    (hA : ∀ i j, |(L * U) i j - A i j| ≤ ((1 / (1 - u)) ^ k - 1) * ∑ q, |L i q| * |U q j|)
    (hL : ∀ i j, |DL i j| ≤ ((1 / (1 - u)) ^ t - 1) * |L i j|) (hU : ∀ i j, |DU i j| ≤ ((1 / (1 - u)) ^ t - 1) * |U i j|) (i j : Fin n) :
    |((L + DL) * (U + DU) - A) i j| ≤ ((1 / (1 - u)) ^ (k + 2 * t) - 1) * ∑ q, |L i q| * |U q j| := by
  set g := (1 / (1 - u)) ^ t - 1 with hg
  set S := ∑ q, |L i q| * |U q j| with hS
  have hS0 : 0 ≤ S := Finset.sum_nonneg fun _ _ => mul_nonneg (abs_nonneg _) (abs_nonneg _)
  have e1 : |((L + DL) * (U + DU)) i j - (L * U) i j| ≤ ((1 + g) ^ 2 - 1) * S := by
    rw [Matrix.mul_apply, Matrix.mul_apply, ← Finset.sum_sub_distrib, hS, Finset.mul_sum]
    exact (Finset.abs_sum_le_sum_abs _ _).trans (Finset.sum_le_sum fun q _ => compose_arith (hL i q) (hU q j))
  have tri := abs_add_le (((L + DL) * (U + DU)) i j - (L * U) i j) ((L * U) i j - A i j)
  rw [sub_add_sub_cancel] at tri
  rw [Matrix.sub_apply]
  have e2 := hA i j
  have a := growth_nonneg h0 h1 k
  have b := growth_nonneg h0 h1 (2 * t)
  have e3 : (1 + g) ^ 2 = (1 / (1 - u)) ^ (2 * t) := by rw [hg, add_sub_cancel, ← pow_mul, mul_comm t 2]
  rw [e3] at e1
  have e4 : (1 / (1 - u)) ^ (k + 2 * t) - 1 = ((1 / (1 - u)) ^ k - 1) * ((1 / (1 - u)) ^ (2 * t) - 1) + ((1 / (1 - u)) ^ k - 1) + ((1 / (1 - u)) ^ (2 * t) - 1) := by
    rw [pow_add]; ring
  rw [e4]
  have := mul_nonneg (mul_nonneg a b) hS0
  nlinarith

end Mathter.Fl
