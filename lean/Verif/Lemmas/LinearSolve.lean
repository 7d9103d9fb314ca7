import Mathlib.LinearAlgebra.Matrix.Block
import Mathlib.Algebra.BigOperators.Field
import Mathlib.LinearAlgebra.Matrix.NonsingularInverse
import Verif.Model.LinearSolve

/-! # Lemmas about the triangular solvers and the LU decompositions -/

namespace Mathter
universe u
variable {K : Type u} {n m : ℕ}

section Tri
variable [Field K]

theorem elimDown_eq (row : Fin n) (ra : Fin n → K) (rb : Fin m → K) (s : Matrix (Fin n) (Fin n) K × Matrix (Fin n) (Fin m) K) :
    forDown row.val (fun t => elimTarget row ⟨t.val, by omega⟩ ra rb) s
      = (Matrix.of fun i j => if i < row then s.1 i j - s.1 i row * ra j else s.1 i j,
         Matrix.of fun i j => if i < row then s.2 i j - s.1 i row * rb j else s.2 i j) := by
  have := forDown_inv (n := row.val) (body := fun t => elimTarget row ⟨t.val, by omega⟩ ra rb) (s := s)
    (fun k s' => s' = (Matrix.of fun i j => if k ≤ i.val ∧ i < row then s.1 i j - s.1 i row * ra j else s.1 i j,
         Matrix.of fun i j => if k ≤ i.val ∧ i < row then s.2 i j - s.1 i row * rb j else s.2 i j)) ?_ ?_
  · rw [this]; simp
  · ext i j
    · simp only [Matrix.of_apply]; rw [if_neg (by omega)]
    · simp only [Matrix.of_apply]; rw [if_neg (by omega)]
  · rintro t _ rfl
    unfold elimTarget
    ext i j
    · simp only [Matrix.updateRow_apply, Matrix.of_apply]
      by_cases h : i = ⟨t.val, by omega⟩
      · subst h; simp [Fin.lt_def]
      · have : t.val ≠ i.val := fun h' => h (Fin.ext h'.symm)
        rw [if_neg h]
        by_cases h2 : t.val ≤ i.val ∧ i < row
        · rw [if_pos h2, if_pos ⟨by omega, h2.2⟩]
        · rw [if_neg h2, if_neg (by omega)]
    · simp only [Matrix.updateRow_apply, Matrix.of_apply]
      by_cases h : i = ⟨t.val, by omega⟩
      · subst h; simp [Fin.lt_def]
      · have : t.val ≠ i.val := fun h' => h (Fin.ext h'.symm)
        rw [if_neg h]
        by_cases h2 : t.val ≤ i.val ∧ i < row
        · rw [if_pos h2, if_pos ⟨by omega, h2.2⟩]
        · rw [if_neg h2, if_neg (by omega)]

theorem elimUp_eq (row : Fin n) (ra : Fin n → K) (rb : Fin m → K) (s : Matrix (Fin n) (Fin n) K × Matrix (Fin n) (Fin m) K) :
    forUp n (row.val + 1) (fun t => elimTarget row t ra rb) s
      = (Matrix.of fun i j => if row < i then s.1 i j - s.1 i row * ra j else s.1 i j,
         Matrix.of fun i j => if row < i then s.2 i j - s.1 i row * rb j else s.2 i j) := by
  have := forUp_inv (n := n) (lo := row.val + 1) (body := fun t => elimTarget row t ra rb) (s := s)
    (fun k s' => s' = (Matrix.of fun i j => if i.val < k ∧ row < i then s.1 i j - s.1 i row * ra j else s.1 i j,
         Matrix.of fun i j => if i.val < k ∧ row < i then s.2 i j - s.1 i row * rb j else s.2 i j)) (by omega) ?_ ?_
  · rw [this]; simp
  · ext i j
    · simp only [Matrix.of_apply]; rw [if_neg (by omega)]
    · simp only [Matrix.of_apply]; rw [if_neg (by omega)]
  · rintro t _ ht rfl
    unfold elimTarget
    have ht' : row < t := ht
    ext i j
    · simp only [Matrix.updateRow_apply, Matrix.of_apply]
      by_cases h : i = t
      · subst h; simp [ht']
      · have : t.val ≠ i.val := fun h' => h (Fin.ext h'.symm)
        rw [if_neg h]
        by_cases h2 : i.val < t.val ∧ row < i
        · rw [if_pos h2, if_pos ⟨by omega, h2.2⟩]
        · rw [if_neg h2, if_neg (by omega)]
    · simp only [Matrix.updateRow_apply, Matrix.of_apply]
      by_cases h : i = t
      · subst h; simp [ht']
      · have : t.val ≠ i.val := fun h' => h (Fin.ext h'.symm)
        rw [if_neg h]
        by_cases h2 : i.val < t.val ∧ row < i
        · rw [if_pos h2, if_pos ⟨by omega, h2.2⟩]
        · rw [if_neg h2, if_neg (by omega)]

/-- One outer step (normalise row `row`, subtract it from the rows selected by `S`) keeps solutions. -/
theorem step_solution (row : Fin n) (S : Fin n → Prop) [DecidablePred S] {A : Matrix (Fin n) (Fin n) K} {b : Matrix (Fin n) (Fin m) K}
    (hl : A row row ≠ 0) {A' : Matrix (Fin n) (Fin n) K} {b' : Matrix (Fin n) (Fin m) K}
    (hA : ∀ i j, A' i j = if i = row then A row j / A row row else if S i then A i j - A i row * (A row j / A row row) else A i j)
    (hb : ∀ i j, b' i j = if i = row then b row j / A row row else if S i then b i j - A i row * (b row j / A row row) else b i j)
    (X : Matrix (Fin n) (Fin m) K) (h : A' * X = b') : A * X = b := by
  have hrow : ∀ j, (A * X) row j = b row j := by
    intro j
    have := congrFun (congrFun h row) j
    rw [Matrix.mul_apply, hb, if_pos rfl] at this
    simp only [hA, if_true] at this
    rw [Matrix.mul_apply]
    field_simp at this
    rw [← this, Finset.mul_sum]
    apply Finset.sum_congr rfl
    intro q _; field_simp
  ext i j
  by_cases hi : i = row
  · rw [hi]; exact hrow j
  have := congrFun (congrFun h i) j
  rw [Matrix.mul_apply, hb, if_neg hi] at this
  simp only [hA, if_neg hi] at this
  by_cases hs : S i
  · simp only [if_pos hs] at this
    have e : ∑ q, (A i q - A i row * (A row q / A row row)) * X q j = (A * X) i j - A i row * ((A * X) row j / A row row) := by
      rw [Matrix.mul_apply, Matrix.mul_apply, Finset.sum_div, Finset.mul_sum, ← Finset.sum_sub_distrib]
      apply Finset.sum_congr rfl
      intro q _; ring
    rw [e, hrow] at this
    linear_combination this
  · simp only [if_neg hs] at this
    rw [Matrix.mul_apply]; exact this

variable [DecidableEq K]

theorem solveUpperStep_eq (row : Fin n) (A : Matrix (Fin n) (Fin n) K) (b : Matrix (Fin n) (Fin m) K) (hl : A row row ≠ 0) :
    solveUpperStep row (A, b) = some
      (Matrix.of fun i j => if i = row then A row j / A row row else if i < row then A i j - A i row * (A row j / A row row) else A i j,
       Matrix.of fun i j => if i = row then b row j / A row row else if i < row then b i j - A i row * (b row j / A row row) else b i j) := by
  unfold solveUpperStep
  simp only [hl, if_false]
  rw [elimDown_eq]
  congr 2
  · ext i j
    simp only [Matrix.of_apply, Matrix.updateRow_apply]
    by_cases h : i = row <;> simp [h]
  · ext i j
    simp only [Matrix.of_apply, Matrix.updateRow_apply]
    by_cases h : i = row <;> simp [h]

theorem solveLowerStep_eq (row : Fin n) (A : Matrix (Fin n) (Fin n) K) (b : Matrix (Fin n) (Fin m) K) (hl : A row row ≠ 0) :
    solveLowerStep row (A, b) = some
      (Matrix.of fun i j => if i = row then A row j / A row row else if row < i then A i j - A i row * (A row j / A row row) else A i j,
       Matrix.of fun i j => if i = row then b row j / A row row else if row < i then b i j - A i row * (b row j / A row row) else b i j) := by
  unfold solveLowerStep
  simp only [hl, if_false]
  rw [elimUp_eq]
  congr 2
  · ext i j
    simp only [Matrix.of_apply, Matrix.updateRow_apply]
    by_cases h : i = row <;> simp [h]
  · ext i j
    simp only [Matrix.of_apply, Matrix.updateRow_apply]
    by_cases h : i = row <;> simp [h]

/-- The upper solver succeeds on upper triangular matrices with nonzero diagonal and returns a solution. -/
theorem solveUpper_correct (A : Matrix (Fin n) (Fin n) K) (b : Matrix (Fin n) (Fin m) K) (ht : ∀ i j, j < i → A i j = 0) (hd : ∀ i, A i i ≠ 0) :
    ∃ X, solveUpper A b = some X ∧ A * X = b := by
  have := forDown_inv (n := n) (body := fun row (s : Option (Matrix (Fin n) (Fin n) K × Matrix (Fin n) (Fin m) K)) => s.bind (solveUpperStep row))
    (s := some (A, b))
    (fun k s => ∃ A' b', s = some (A', b') ∧ (∀ X : Matrix (Fin n) (Fin m) K, A' * X = b' → A * X = b) ∧
      (∀ i j, k ≤ i.val → A' i j = if i = j then 1 else 0) ∧ (∀ i j, i.val < k → k ≤ j.val → A' i j = 0) ∧
      (∀ i j, i.val < k → j.val < k → A' i j = A i j)) ?_ ?_
  · obtain ⟨A', b', hs, hsol, h1, -, -⟩ := this
    refine ⟨b', ?_, hsol b' ?_⟩
    · unfold solveUpper; rw [hs]; rfl
    · have : A' = 1 := by ext i j; rw [h1 i j (Nat.zero_le _), Matrix.one_apply]
      rw [this, Matrix.one_mul]
  · exact ⟨A, b, rfl, fun X h => h, fun i j h => by omega, fun i j h h' => by omega, fun i j _ _ => rfl⟩
  · rintro row _ ⟨A', b', rfl, hsol, h1, h2, h3⟩
    have hl : A' row row ≠ 0 := by rw [h3 row row (by omega) (by omega)]; exact hd row
    have hrow : ∀ j, A' row j / A' row row = if row = j then 1 else 0 := by
      intro j
      split
      · rename_i h; subst h; exact div_self hl
      · rename_i h
        by_cases hj : j.val < row.val
        · rw [h3 row j (by omega) (by omega), ht row j hj, zero_div]
        · have : row.val ≠ j.val := fun h' => h (Fin.ext h')
          rw [h2 row j (by omega) (by omega), zero_div]
    refine ⟨_, _, by rw [Option.bind_some, solveUpperStep_eq row A' b' hl], ?_, ?_, ?_, ?_⟩
    · intro X hX
      exact hsol X (step_solution row (fun i => i < row) hl (fun _ _ => rfl) (fun _ _ => rfl) X hX)
    · intro i j hi
      simp only [Matrix.of_apply, hrow]
      by_cases h : i = row
      · rw [if_pos h, h]
      · have : i.val ≠ row.val := fun h' => h (Fin.ext h')
        rw [if_neg h, if_neg (by rw [Fin.lt_def]; omega), h1 i j (by omega)]
    · intro i j hi hj
      simp only [Matrix.of_apply, hrow]
      rw [if_neg (by intro h; subst h; omega), if_pos (by rw [Fin.lt_def]; omega)]
      by_cases h : row = j
      · subst h; simp
      · have : row.val ≠ j.val := fun h' => h (Fin.ext h')
        rw [if_neg h, h2 i j (by omega) (by omega)]; ring
    · intro i j hi hj
      simp only [Matrix.of_apply, hrow]
      rw [if_neg (by intro h; subst h; omega), if_pos (by rw [Fin.lt_def]; omega), if_neg (by intro h; subst h; omega),
        h3 i j (by omega) (by omega)]; ring

/-- The lower solver succeeds on lower triangular matrices with nonzero diagonal and returns a solution. -/
theorem solveLower_correct (A : Matrix (Fin n) (Fin n) K) (b : Matrix (Fin n) (Fin m) K) (ht : ∀ i j, i < j → A i j = 0) (hd : ∀ i, A i i ≠ 0) :
    ∃ X, solveLower A b = some X ∧ A * X = b := by
  have := forUp_inv (n := n) (lo := 0) (body := fun row (s : Option (Matrix (Fin n) (Fin n) K × Matrix (Fin n) (Fin m) K)) => s.bind (solveLowerStep row))
    (s := some (A, b))
    (fun k s => ∃ A' b', s = some (A', b') ∧ (∀ X : Matrix (Fin n) (Fin m) K, A' * X = b' → A * X = b) ∧
      (∀ i j, i.val < k → A' i j = if i = j then 1 else 0) ∧ (∀ i j, k ≤ i.val → j.val < k → A' i j = 0) ∧
      (∀ i j, k ≤ i.val → k ≤ j.val → A' i j = A i j)) (Nat.zero_le _) ?_ ?_
  · obtain ⟨A', b', hs, hsol, h1, -, -⟩ := this
    refine ⟨b', ?_, hsol b' ?_⟩
    · unfold solveLower; rw [hs]; rfl
    · have : A' = 1 := by ext i j; rw [h1 i j i.isLt, Matrix.one_apply]
      rw [this, Matrix.one_mul]
  · exact ⟨A, b, rfl, fun X h => h, fun i j h => by omega, fun i j h h' => by omega, fun i j _ _ => rfl⟩
  · rintro row _ - ⟨A', b', rfl, hsol, h1, h2, h3⟩
    have hl : A' row row ≠ 0 := by rw [h3 row row (by omega) (by omega)]; exact hd row
    have hrow : ∀ j, A' row j / A' row row = if row = j then 1 else 0 := by
      intro j
      split
      · rename_i h; subst h; exact div_self hl
      · rename_i h
        by_cases hj : j.val < row.val
        · rw [h2 row j (by omega) (by omega), zero_div]
        · have : row.val ≠ j.val := fun h' => h (Fin.ext h')
          rw [h3 row j (by omega) (by omega), ht row j (by rw [Fin.lt_def]; omega), zero_div]
    refine ⟨_, _, by rw [Option.bind_some, solveLowerStep_eq row A' b' hl], ?_, ?_, ?_, ?_⟩
    · intro X hX
      exact hsol X (step_solution row (fun i => row < i) hl (fun _ _ => rfl) (fun _ _ => rfl) X hX)
    · intro i j hi
      simp only [Matrix.of_apply, hrow]
      by_cases h : i = row
      · rw [if_pos h, h]
      · have : i.val ≠ row.val := fun h' => h (Fin.ext h')
        rw [if_neg h, if_neg (by rw [Fin.lt_def]; omega), h1 i j (by omega)]
    · intro i j hi hj
      simp only [Matrix.of_apply, hrow]
      rw [if_neg (by intro h; subst h; omega), if_pos (by rw [Fin.lt_def]; omega)]
      by_cases h : row = j
      · subst h; simp
      · have : row.val ≠ j.val := fun h' => h (Fin.ext h')
        rw [if_neg h, h2 i j (by omega) (by omega)]; ring
    · intro i j hi hj
      simp only [Matrix.of_apply, hrow]
      rw [if_neg (by intro h; subst h; omega), if_pos (by rw [Fin.lt_def]; omega), if_neg (by intro h; subst h; omega),
        h3 i j (by omega) (by omega)]; ring

/-- On an upper triangular matrix with a zero on the diagonal the solver divides by zero. -/
theorem solveUpper_none (A : Matrix (Fin n) (Fin n) K) (b : Matrix (Fin n) (Fin m) K) (ht : ∀ i j, j < i → A i j = 0) (i0 : Fin n)
    (h0 : A i0 i0 = 0) : solveUpper A b = none := by
  have := forDown_inv (n := n) (body := fun row (s : Option (Matrix (Fin n) (Fin n) K × Matrix (Fin n) (Fin m) K)) => s.bind (solveUpperStep row))
    (s := some (A, b))
    (fun k s => s = none ∨ (k > i0.val ∧ ∃ A' b', s = some (A', b') ∧
      (∀ i j, i.val < k → k ≤ j.val → A' i j = 0) ∧ (∀ i j, i.val < k → j.val < k → A' i j = A i j))) ?_ ?_
  · rcases this with h | ⟨h, -⟩
    · unfold solveUpper; rw [h]; rfl
    · omega
  · exact Or.inr ⟨i0.isLt, A, b, rfl, fun i j h h' => by omega, fun i j _ _ => rfl⟩
  · rintro row _ (rfl | ⟨hk, A', b', rfl, h2, h3⟩)
    · left; rfl
    by_cases hl : A' row row = 0
    · left; simp [solveUpperStep, hl]
    have hne : row ≠ i0 := by
      rintro rfl; exact hl (by rw [h3 _ _ (by omega) (by omega)]; exact h0)
    have hne' : row.val ≠ i0.val := fun h => hne (Fin.ext h)
    have hrow : ∀ j, A' row j / A' row row = if row = j then 1 else 0 := by
      intro j
      split
      · rename_i h; subst h; exact div_self hl
      · rename_i h
        by_cases hj : j.val < row.val
        · rw [h3 row j (by omega) (by omega), ht row j hj, zero_div]
        · have : row.val ≠ j.val := fun h' => h (Fin.ext h')
          rw [h2 row j (by omega) (by omega), zero_div]
    refine Or.inr ⟨by omega, _, _, by rw [Option.bind_some, solveUpperStep_eq row A' b' hl], ?_, ?_⟩
    · intro i j hi hj
      simp only [Matrix.of_apply, hrow]
      rw [if_neg (by intro h; subst h; omega), if_pos (by rw [Fin.lt_def]; omega)]
      by_cases h : row = j
      · subst h; simp
      · have : row.val ≠ j.val := fun h' => h (Fin.ext h')
        rw [if_neg h, h2 i j (by omega) (by omega)]; ring
    · intro i j hi hj
      simp only [Matrix.of_apply, hrow]
      rw [if_neg (by intro h; subst h; omega), if_pos (by rw [Fin.lt_def]; omega), if_neg (by intro h; subst h; omega),
        h3 i j (by omega) (by omega)]; ring

end Tri

section LU
variable [Field K]

theorem luElim_loop (col : Fin n) (pr : Fin n → K) (s : LU K n) :
    forUp n (col.val + 1) (fun row => luElim col row pr) s
      = ⟨Matrix.of fun i j => if col < i ∧ j = col then s.U i col / pr col else s.L i j,
         Matrix.of fun i j => if col < i then (if j = col then 0 else s.U i j - pr j * (s.U i col / pr col)) else s.U i j⟩ := by
  have := forUp_inv (n := n) (lo := col.val + 1) (body := fun row => luElim col row pr) (s := s)
    (fun k s' => s' = ⟨Matrix.of fun i j => if (i.val < k ∧ col < i) ∧ j = col then s.U i col / pr col else s.L i j,
         Matrix.of fun i j => if i.val < k ∧ col < i then (if j = col then 0 else s.U i j - pr j * (s.U i col / pr col)) else s.U i j⟩)
      (by omega) ?_ ?_
  · rw [this]; simp
  · cases s with
    | mk L U =>
      rw [LU.mk.injEq]
      constructor
      · ext i j; simp only [Matrix.of_apply]; rw [if_neg (by omega)]
      · ext i j; simp only [Matrix.of_apply]; rw [if_neg (by omega)]
  · rintro t _ ht rfl
    have ht' : col < t := ht
    simp only [luElim]
    rw [LU.mk.injEq]
    constructor
    · ext i j
      simp only [Matrix.of_apply]
      by_cases h : i = t
      · subst h; simp [ht']
      · have : t.val ≠ i.val := fun h' => h (Fin.ext h'.symm)
        have e : (i.val < t.val + 1 ∧ col < i) ↔ (i.val < t.val ∧ col < i) := by omega
        simp only [h, false_and, if_false, e]
    · ext i j
      simp only [Matrix.of_apply, Matrix.updateRow_apply]
      by_cases h : i = t
      · subst h; simp [ht']
      · have : t.val ≠ i.val := fun h' => h (Fin.ext h'.symm)
        have e : (i.val < t.val + 1 ∧ col < i) ↔ (i.val < t.val ∧ col < i) := by omega
        simp only [h, false_and, if_false, e]

/-- Invariant of the LU loops before column `k`: `A` is the matrix whose rows have been permuted so far. -/
structure LUInv (A L U : Matrix (Fin n) (Fin n) K) (k : ℕ) : Prop where
  diag : ∀ i, L i i = 1
  zero : ∀ i j, i ≠ j → (i < j ∨ k ≤ j.val) → L i j = 0
  low : ∀ i j, j.val < k → j < i → U i j = 0
  eq : ∀ i j, A i j = (∑ q : Fin n, if q.val < k ∧ q < i then L i q * U q j else 0) + U i j

theorem LUInv.init (A : Matrix (Fin n) (Fin n) K) : LUInv A 1 A 0 :=
  ⟨fun i => by simp, fun i j h _ => Matrix.one_apply_ne h, fun i j h => by omega, fun i j => by simp⟩

private theorem sum_succ_split (f : Fin n → K) (i col : Fin n) :
    (∑ q : Fin n, if q.val < col.val + 1 ∧ q < i then f q else 0)
      = (∑ q : Fin n, if q.val < col.val ∧ q < i then f q else 0) + (if col < i then f col else 0) := by
  have : ∀ q : Fin n, (if q.val < col.val + 1 ∧ q < i then f q else 0)
      = (if q.val < col.val ∧ q < i then f q else 0) + (if q = col then (if col < i then f col else 0) else 0) := by
    intro q
    by_cases h : q = col
    · subst h; simp
    · have : q.val ≠ col.val := fun h' => h (Fin.ext h')
      have e : (q.val < col.val + 1) ↔ q.val < col.val := by omega
      simp [h, e]
  simp only [this, Finset.sum_add_distrib]
  simp

/-- Eliminating below a nonzero pivot keeps the invariant. -/
theorem LUInv.step {A L U : Matrix (Fin n) (Fin n) K} {col : Fin n} (h : LUInv A L U col.val) (hp : U col col ≠ 0) :
    LUInv A (Matrix.of fun i j => if col < i ∧ j = col then U i col / U col col else L i j)
      (Matrix.of fun i j => if col < i then (if j = col then 0 else U i j - U col j * (U i col / U col col)) else U i j) (col.val + 1) := by
  refine ⟨fun i => ?_, fun i j hij hj => ?_, fun i j hj hji => ?_, fun i j => ?_⟩
  · simp only [Matrix.of_apply]
    rw [if_neg (by rintro ⟨h1, h2⟩; subst h2; exact lt_irrefl _ h1)]
    exact h.diag i
  · simp only [Matrix.of_apply]
    rw [if_neg (by rintro ⟨h1, h2⟩; subst h2; rcases hj with hj | hj <;> [exact absurd hj (not_lt.2 h1.le); omega])]
    exact h.zero i j hij (by rcases hj with hj | hj <;> [exact Or.inl hj; exact Or.inr (by omega)])
  · simp only [Matrix.of_apply]
    by_cases hc : col < i
    · rw [if_pos hc]
      by_cases hjc : j = col
      · rw [if_pos hjc]
      · have : j.val ≠ col.val := fun h' => hjc (Fin.ext h')
        rw [if_neg hjc, h.low i j (by omega) hji, h.low col j (by omega) (by rw [Fin.lt_def]; omega)]; ring
    · rw [if_neg hc]
      have : j.val < col.val := by rw [Fin.lt_def] at hji hc; omega
      exact h.low i j this hji
  · have e1 := h.eq i j
    simp only [Matrix.of_apply]
    have e2 : (∑ q : Fin n, if q.val < col.val + 1 ∧ q < i then (if col < i ∧ q = col then U i col / U col col else L i q) *
          (if col < q then (if j = col then 0 else U q j - U col j * (U q col / U col col)) else U q j) else 0)
        = (∑ q : Fin n, if q.val < col.val ∧ q < i then L i q * U q j else 0) + (if col < i then U i col / U col col * U col j else 0) := by
      rw [sum_succ_split (fun q => (if col < i ∧ q = col then U i col / U col col else L i q) *
          (if col < q then (if j = col then 0 else U q j - U col j * (U q col / U col col)) else U q j)) i col]
      congr 1
      · apply Finset.sum_congr rfl
        intro q _
        by_cases hq : q.val < col.val ∧ q < i
        · rw [if_pos hq, if_pos hq, if_neg (by rintro ⟨_, rfl⟩; omega), if_neg (by rw [Fin.lt_def]; omega)]
        · rw [if_neg hq, if_neg hq]
      · by_cases hc : col < i
        · simp [hc]
        · simp [hc]
    rw [e2, e1]
    by_cases hc : col < i
    · rw [if_pos hc, if_pos hc]
      by_cases hj : j = col
      · subst hj; rw [if_pos rfl]; field_simp; ring
      · rw [if_neg hj]; ring
    · rw [if_neg hc, if_neg hc]; ring

/-- Skipping a column that is zero from the diagonal on keeps the invariant. -/
theorem LUInv.skip {A L U : Matrix (Fin n) (Fin n) K} {col : Fin n} (h : LUInv A L U col.val) (hz : ∀ i, col ≤ i → U i col = 0) :
    LUInv A L U (col.val + 1) := by
  refine ⟨h.diag, fun i j hij hj => h.zero i j hij (by rcases hj with hj | hj <;> [exact Or.inl hj; exact Or.inr (by omega)]), ?_, ?_⟩
  · intro i j hj hji
    by_cases hjc : j = col
    · subst hjc; exact hz i hji.le
    · have : j.val ≠ col.val := fun h' => hjc (Fin.ext h')
      exact h.low i j (by omega) hji
  · intro i j
    rw [sum_succ_split, h.eq i j]
    by_cases hc : col < i
    · rw [if_pos hc, h.zero i col (ne_of_gt hc) (Or.inr le_rfl)]; ring
    · rw [if_neg hc]; ring

/-- Exchanging two rows from row `k` on, in `A`, `U` and the finished columns of `L`, keeps the invariant. -/
theorem LUInv.swap {A L U : Matrix (Fin n) (Fin n) K} {col piv : Fin n} (h : LUInv A L U col.val) (hp : col ≤ piv) :
    LUInv (Matrix.of fun i j => A (Equiv.swap col piv i) j)
      (Matrix.of fun i j => if j.val < col.val then L (Equiv.swap col piv i) j else L i j)
      (Matrix.of fun i j => U (Equiv.swap col piv i) j) col.val := by
  have hfix : ∀ i : Fin n, i.val < col.val → Equiv.swap col piv i = i := by
    intro i hi
    apply Equiv.swap_apply_of_ne_of_ne
    · rintro rfl; omega
    · rintro rfl; rw [Fin.le_def] at hp; omega
  have hge : ∀ i : Fin n, col ≤ i → col ≤ Equiv.swap col piv i := by
    intro i hi
    by_cases h1 : i = col
    · rw [h1, Equiv.swap_apply_left]; exact hp
    · by_cases h2 : i = piv
      · rw [h2, Equiv.swap_apply_right]
      · rw [Equiv.swap_apply_of_ne_of_ne h1 h2]; exact hi
  refine ⟨fun i => ?_, fun i j hij hj => ?_, fun i j hj hji => ?_, fun i j => ?_⟩
  · simp only [Matrix.of_apply]
    split
    · rename_i hi; rw [hfix i hi]; exact h.diag i
    · exact h.diag i
  · simp only [Matrix.of_apply]
    split
    · rename_i hjc
      rcases hj with hj | hj
      · rw [hfix i (by rw [Fin.lt_def] at hj; omega)]; exact h.zero i j hij (Or.inl hj)
      · omega
    · exact h.zero i j hij hj
  · simp only [Matrix.of_apply]
    by_cases hi : i.val < col.val
    · rw [hfix i hi]; exact h.low i j hj hji
    · apply h.low _ j hj
      have := hge i (by rw [Fin.le_def]; omega)
      rw [Fin.le_def] at this; rw [Fin.lt_def]; omega
  · simp only [Matrix.of_apply]
    rw [h.eq]
    congr 1
    apply Finset.sum_congr rfl
    intro q _
    by_cases hi : i.val < col.val
    · rw [hfix i hi]
      by_cases hq : q.val < col.val ∧ q < i
      · rw [if_pos hq, if_pos hq, if_pos hq.1, hfix q hq.1]
      · rw [if_neg hq, if_neg hq]
    · have h1 := hge i (by rw [Fin.le_def]; omega)
      by_cases hq : q.val < col.val
      · rw [Fin.le_def] at h1
        rw [if_pos ⟨hq, by rw [Fin.lt_def]; omega⟩, if_pos ⟨hq, by rw [Fin.lt_def]; omega⟩, if_pos hq, hfix q hq]
      · rw [if_neg (fun h => hq h.1), if_neg (fun h => hq h.1)]

/-- At the end of the loop the invariant is the factorisation. -/
theorem LUInv.final {A L U : Matrix (Fin (n + 1)) (Fin (n + 1)) K} (h : LUInv A L U n) :
    (∀ i j, i < j → L i j = 0) ∧ (∀ i j, j < i → U i j = 0) ∧ L * U = A := by
  refine ⟨fun i j hij => h.zero i j hij.ne (Or.inl hij), fun i j hji => h.low i j (by rw [Fin.lt_def] at hji; omega) hji, ?_⟩
  ext i j
  rw [h.eq, Matrix.mul_apply]
  have : ∀ q, L i q * U q j = (if q.val < n ∧ q < i then L i q * U q j else 0) + (if q = i then U i j else 0) := by
    intro q
    by_cases hq : q = i
    · subst hq; simp [h.diag]
    · by_cases hlt : q < i
      · rw [if_pos ⟨by rw [Fin.lt_def] at hlt; omega, hlt⟩, if_neg hq, add_zero]
      · rw [if_neg (fun h => hlt h.2), if_neg hq, h.zero i q (Ne.symm hq) (Or.inl (lt_of_le_of_ne (not_lt.1 hlt) (Ne.symm hq)))]; ring
  rw [Finset.sum_congr rfl (fun q _ => this q), Finset.sum_add_distrib]
  simp

/-- Leading principal minors from the invariant. -/
theorem LUInv.minor {A L U : Matrix (Fin n) (Fin n) K} {k : ℕ} (h : LUInv A L U k) (s : ℕ) (hs : s ≤ n) (hk : s ≤ k + 1) :
    (A.submatrix (Fin.castLE hs) (Fin.castLE hs)).det = ∏ q : Fin s, U (Fin.castLE hs q) (Fin.castLE hs q) := by
  have e : A.submatrix (Fin.castLE hs) (Fin.castLE hs)
      = L.submatrix (Fin.castLE hs) (Fin.castLE hs) * U.submatrix (Fin.castLE hs) (Fin.castLE hs) := by
    ext i j
    rw [Matrix.mul_apply]
    simp only [Matrix.submatrix_apply]
    rw [h.eq]
    have hterm : ∀ q : Fin s, L (Fin.castLE hs i) (Fin.castLE hs q) * U (Fin.castLE hs q) (Fin.castLE hs j)
        = (if q < i then L (Fin.castLE hs i) (Fin.castLE hs q) * U (Fin.castLE hs q) (Fin.castLE hs j) else 0)
          + (if q = i then U (Fin.castLE hs i) (Fin.castLE hs j) else 0) := by
      intro q
      by_cases hq : q = i
      · subst hq; simp [h.diag]
      · by_cases hlt : q < i
        · simp [hq, hlt]
        · have : L (Fin.castLE hs i) (Fin.castLE hs q) = 0 :=
            h.zero _ _ (fun h => hq (Fin.castLE_injective hs h).symm) (Or.inl (show i < q from lt_of_le_of_ne (not_lt.1 hlt) (Ne.symm hq)))
          rw [this]; simp [hq, hlt]
    rw [Finset.sum_congr rfl (fun q _ => hterm q), Finset.sum_add_distrib]
    simp only [Finset.sum_ite_eq', Finset.mem_univ, if_true]
    congr 1
    symm
    apply Finset.sum_of_injOn (Fin.castLE hs)
    · intro a _ b _ hab; exact Fin.castLE_injective hs hab
    · intro a _; simp
    · intro q _ hq
      rw [if_neg]
      rintro ⟨h1, h2⟩
      rw [Fin.lt_def] at h2
      simp only [Fin.val_castLE] at h2
      exact hq ⟨⟨q.val, by omega⟩, by simp, Fin.ext rfl⟩
    · intro q _
      by_cases hlt : q < i
      · rw [if_pos hlt, if_pos ⟨by simp only [Fin.val_castLE]; rw [Fin.lt_def] at hlt; omega, hlt⟩]
      · rw [if_neg hlt, if_neg (fun h => hlt h.2)]
  rw [e, Matrix.det_mul, Matrix.det_of_isLowerTriangular, Matrix.det_of_isUpperTriangular]
  · simp [h.diag]
  · intro i j hij
    exact h.low _ _ (by simp only [id] at hij; rw [Fin.lt_def] at hij; simp only [Fin.val_castLE]; omega) hij
  · intro i j hij
    have hij' : i < j := hij
    exact h.zero _ _ (fun h => hij'.ne (Fin.castLE_injective hs h)) (Or.inl hij')

end LU

/-- `std::max_element` returns a position in the range whose value is largest. -/
theorem maxElementIdx_spec (abs : Fin n → ℝ) (lo : Fin n) :
    lo ≤ maxElementIdx abs lo ∧ ∀ i, lo ≤ i → abs i ≤ abs (maxElementIdx abs lo) := by
  have := forUp_inv (n := n) (lo := lo.val + 1) (body := fun i best => if abs best < abs i then i else best) (s := lo)
    (fun k b => lo ≤ b ∧ ∀ i, lo ≤ i → i.val < k → abs i ≤ abs b) (by omega) ?_ ?_
  · exact ⟨this.1, fun i hi => this.2 i hi i.isLt⟩
  · refine ⟨le_rfl, fun i hi hi2 => ?_⟩
    rw [show i = lo from Fin.ext (by rw [Fin.le_def] at hi; omega)]
  · rintro t b ht ⟨h1, h2⟩
    split
    · rename_i hlt
      refine ⟨by rw [Fin.le_def]; omega, fun i hi hi2 => ?_⟩
      by_cases h : i = t
      · rw [h]
      · have : i.val ≠ t.val := fun h' => h (Fin.ext h')
        exact (h2 i hi (by omega)).trans hlt.le
    · rename_i hlt
      refine ⟨h1, fun i hi hi2 => ?_⟩
      by_cases h : i = t
      · rw [h]; exact not_lt.1 hlt
      · have : i.val ≠ t.val := fun h' => h (Fin.ext h')
        exact h2 i hi (by omega)

/-- The loop swapping the finished columns of `L`. -/
theorem swapL_loop (col piv : Fin n) (L : Matrix (Fin n) (Fin n) K) :
    forUp col.val 0 (fun i (L : Matrix (Fin n) (Fin n) K) => Matrix.of fun r c =>
      if c.val = i.val then (if r = piv then L col c else if r = col then L piv c else L r c) else L r c) L
    = Matrix.of fun r c => if c.val < col.val then L (Equiv.swap col piv r) c else L r c := by
  have hsw : ∀ r : Fin n, Equiv.swap col piv r = if r = piv then col else if r = col then piv else r := by
    intro r
    rw [Equiv.swap_comm, Equiv.swap_apply_def]
  have := forUp_inv (n := col.val) (lo := 0) (body := fun i (L : Matrix (Fin n) (Fin n) K) => Matrix.of fun r c =>
      if c.val = i.val then (if r = piv then L col c else if r = col then L piv c else L r c) else L r c) (s := L)
    (fun k L' => L' = Matrix.of fun r c => if c.val < k then L (Equiv.swap col piv r) c else L r c) (Nat.zero_le _) ?_ ?_
  · exact this
  · ext r c; simp
  · rintro t _ - rfl
    ext r c
    simp only [Matrix.of_apply]
    by_cases h : c.val = t.val
    · have h1 : ¬ c.val < t.val := by omega
      have h2 : c.val < t.val + 1 := by omega
      simp only [if_pos h, if_neg h1, if_pos h2, hsw]
      split_ifs <;> rfl
    · rw [if_neg h]
      by_cases h2 : c.val < t.val
      · rw [if_pos h2, if_pos (by omega)]
      · rw [if_neg h2, if_neg (by omega)]

/-- The permutation loops. -/
theorem permuteRows_eq (P : Fin n → Fin n) (b0 b : Matrix (Fin n) (Fin m) K) : permuteRows P b0 b = Matrix.of fun i j => b (P i) j := by
  have := forUp_inv (n := n) (lo := 0) (body := fun i (r : Matrix (Fin n) (Fin m) K) => r.updateRow i (b (P i))) (s := b0)
    (fun k r => ∀ i j, i.val < k → r i j = b (P i) j) (Nat.zero_le _) (fun i j h => by omega) (fun t r _ h i j hi => by
      rw [Matrix.updateRow_apply]
      by_cases h1 : i = t
      · rw [if_pos h1, h1]
      · have : i.val ≠ t.val := fun h' => h1 (Fin.ext h')
        rw [if_neg h1]; exact h i j (by omega))
  ext i j; exact this i j i.isLt

theorem permuteCols_eq (P : Fin n → Fin n) (b0 b : Matrix (Fin m) (Fin n) K) : permuteCols P b0 b = Matrix.of fun i j => b i (P j) := by
  have := forUp_inv (n := n) (lo := 0) (body := fun i (r : Matrix (Fin m) (Fin n) K) => r.updateCol i (fun j => b j (P i))) (s := b0)
    (fun k r => ∀ i j, j.val < k → r i j = b i (P j)) (Nat.zero_le _) (fun i j h => by omega) (fun t r _ h i j hi => by
      rw [Matrix.updateCol_apply]
      by_cases h1 : j = t
      · rw [if_pos h1, h1]
      · have : j.val ≠ t.val := fun h' => h1 (Fin.ext h')
        rw [if_neg h1]; exact h i j (by omega))
  ext i j; exact this i j j.isLt

theorem inversePermuteRows_apply (P : Fin n → Fin n) (hP : Function.Injective P) (b0 b : Matrix (Fin n) (Fin m) K) (i : Fin n) (j : Fin m) :
    inversePermuteRows P b0 b (P i) j = b i j := by
  have := forUp_inv (n := n) (lo := 0) (body := fun i (r : Matrix (Fin n) (Fin m) K) => r.updateRow (P i) (b i)) (s := b0)
    (fun k r => ∀ i j, i.val < k → r (P i) j = b i j) (Nat.zero_le _) (fun i j h => by omega) (fun t r _ h i j hi => by
      rw [Matrix.updateRow_apply]
      by_cases h1 : i = t
      · rw [if_pos (by rw [h1]), h1]
      · have : i.val ≠ t.val := fun h' => h1 (Fin.ext h')
        rw [if_neg (fun h => h1 (hP h))]; exact h i j (by omega))
  exact this i j i.isLt

theorem inversePermuteCols_apply (P : Fin n → Fin n) (hP : Function.Injective P) (b0 b : Matrix (Fin m) (Fin n) K) (i : Fin m) (j : Fin n) :
    inversePermuteCols P b0 b i (P j) = b i j := by
  have := forUp_inv (n := n) (lo := 0) (body := fun i (r : Matrix (Fin m) (Fin n) K) => r.updateCol (P i) (fun j => b j i)) (s := b0)
    (fun k r => ∀ i j, j.val < k → r i (P j) = b i j) (Nat.zero_le _) (fun i j h => by omega) (fun t r _ h i j hi => by
      rw [Matrix.updateCol_apply]
      by_cases h1 : j = t
      · rw [if_pos (by rw [h1]), h1]
      · have : j.val ≠ t.val := fun h' => h1 (Fin.ext h')
        rw [if_neg (fun h => h1 (hP h))]; exact h i j (by omega))
  exact this i j j.isLt

theorem expandPermutation_eq [Zero K] [One K] (P : Fin n → Fin n) :
    (expandPermutation P : Matrix (Fin n) (Fin n) K) = Matrix.of fun i j => if j = P i then 1 else 0 := by
  have := forUp_inv (n := n) (lo := 0) (body := fun i (M : Matrix (Fin n) (Fin n) K) => Matrix.of fun r c => if r = i ∧ c = P i then 1 else M r c)
    (s := 0) (fun k M => ∀ i j, M i j = if i.val < k ∧ j = P i then 1 else 0) (Nat.zero_le _) (fun i j => by simp) (fun t M _ h i j => by
      simp only [Matrix.of_apply, h]
      by_cases h1 : i = t
      · subst h1; simp
      · have : i.val ≠ t.val := fun h' => h1 (Fin.ext h')
        have e : i.val < t.val + 1 ↔ i.val < t.val := by omega
        simp [h1, e])
  ext i j
  unfold expandPermutation
  rw [this i j]; simp

/-- Invariant of the LUP loop. -/
structure LUPInv {𝕜 : Type u} [RCLike 𝕜] (A : Matrix (Fin n) (Fin n) 𝕜) (d : LUP 𝕜 n) (k : ℕ) : Prop where
  inj : Function.Injective d.P
  lu : LUInv (Matrix.of fun i j => A (d.P i) j) d.L d.U k
  bound : ∀ i j, ‖d.L i j‖ ≤ 1

theorem LUPInv.step {𝕜 : Type u} [RCLike 𝕜] {A : Matrix (Fin n) (Fin n) 𝕜} {d : LUP 𝕜 n} {col : Fin n} (h : LUPInv A d col.val) :
    LUPInv A (lupStep col d) (col.val + 1) := by
  obtain ⟨hge, hmax⟩ := maxElementIdx_spec (fun i => ‖d.U i col‖) col
  set piv := maxElementIdx (fun i => ‖d.U i col‖) col with hpiv
  clear_value piv
  unfold lupStep
  simp only
  rw [← hpiv]
  by_cases hp : d.U piv col ≠ 0
  · rw [if_pos hp, swapL_loop, luElim_loop]
    have hU : (d.U.updateRow piv (d.U col)).updateRow col (d.U piv) = Matrix.of fun i j => d.U (Equiv.swap col piv i) j := by
      ext i j
      simp only [Matrix.updateRow_apply, Matrix.of_apply]
      by_cases h1 : i = col
      · simp [h1]
      · by_cases h2 : i = piv
        · simp [h2]
          intro h3; rw [h3]
        · simp [h1, h2, Equiv.swap_apply_of_ne_of_ne h1 h2]
    have hP : (fun i => if i = piv then d.P col else if i = col then d.P piv else d.P i) = fun i => d.P (Equiv.swap col piv i) := by
      funext i
      by_cases h2 : i = piv
      · simp [h2]
      · by_cases h1 : i = col
        · subst h1; rw [if_neg h2, if_pos rfl, Equiv.swap_apply_left]
        · simp [h1, h2, Equiv.swap_apply_of_ne_of_ne h1 h2]
    rw [hU, hP]
    have hsw := h.lu.swap hge
    have hpv : (Matrix.of fun i j => d.U (Equiv.swap col piv i) j : Matrix (Fin n) (Fin n) 𝕜) col col ≠ 0 := by simpa using hp
    have hst := hsw.step hpv
    refine ⟨fun a b hab => (Equiv.swap col piv).injective (h.inj hab), ?_, ?_⟩
    · simpa using hst
    · intro i j
      simp only [Matrix.of_apply]
      split
      · rename_i hc
        rw [norm_div]
        apply div_le_one_of_le₀ _ (norm_nonneg _)
        apply hmax
        by_cases h2 : i = piv
        · rw [h2, Equiv.swap_apply_right]
        · rw [Equiv.swap_apply_of_ne_of_ne (ne_of_gt hc.1) h2]; exact hc.1.le
      · split <;> exact h.bound _ _
  · rw [if_neg hp]
    push Not at hp
    refine ⟨h.inj, h.lu.skip fun i hi => ?_, h.bound⟩
    have := hmax i hi
    simp only [hp, norm_zero] at this
    exact norm_le_zero_iff.1 this

theorem decomposeLUP_inv {𝕜 : Type u} [RCLike 𝕜] (A : Matrix (Fin (n + 1)) (Fin (n + 1)) 𝕜) : LUPInv A (decomposeLUP A) n :=
  forUp_inv (n := n) (lo := 0) (body := fun col => lupStep col.castSucc) (s := (⟨1, A, id⟩ : LUP 𝕜 (n + 1)))
    (fun k s => LUPInv A s k) (Nat.zero_le _)
    ⟨Function.injective_id, LUInv.init A, fun i j => by show ‖(1 : Matrix (Fin (n + 1)) (Fin (n + 1)) 𝕜) i j‖ ≤ 1; rw [Matrix.one_apply]; split <;> simp⟩
    (fun _ _ _ h => LUPInv.step h)

/-- Reaching the end of the LU loop. -/
theorem decomposeLU_inv [Field K] [DecidableEq K] (A : Matrix (Fin (n + 1)) (Fin (n + 1)) K) :
    (∃ d, decomposeLU A = some d ∧ LUInv A d.L d.U n ∧ ∀ q : Fin n, d.U q.castSucc q.castSucc ≠ 0) ∨
    (decomposeLU A = none ∧ ∃ (s : ℕ) (h : s + 1 ≤ n), (A.submatrix (Fin.castLE (show s + 1 ≤ n + 1 by omega))
      (Fin.castLE (show s + 1 ≤ n + 1 by omega))).det = 0) := by
  have := forUp_inv (n := n) (lo := 0) (body := fun col (s : Option (LU K (n + 1))) => s.bind fun s =>
    let pivotRow := s.U col.castSucc
    if pivotRow col.castSucc = 0 then none
    else some (forUp (n + 1) (col.val + 1) (fun row => luElim col.castSucc row pivotRow) s)) (s := some ⟨1, A⟩)
    (fun k s => (∃ d, s = some d ∧ LUInv A d.L d.U k ∧ ∀ q : Fin n, q.val < k → d.U q.castSucc q.castSucc ≠ 0) ∨
      (s = none ∧ ∃ (s : ℕ) (h : s + 1 ≤ n), (A.submatrix (Fin.castLE (show s + 1 ≤ n + 1 by omega))
      (Fin.castLE (show s + 1 ≤ n + 1 by omega))).det = 0)) (Nat.zero_le _) ?_ ?_
  · rcases this with ⟨d, h1, h2, h3⟩ | h
    · exact Or.inl ⟨d, h1, h2, fun q => h3 q q.isLt⟩
    · exact Or.inr h
  · exact Or.inl ⟨_, rfl, LUInv.init A, fun q h => by omega⟩
  · rintro col _ - (⟨d, rfl, hI, hd⟩ | ⟨rfl, h⟩)
    · by_cases hp : d.U col.castSucc col.castSucc = 0
      · refine Or.inr ⟨by simp [hp], col.val, col.isLt, ?_⟩
        rw [hI.minor (col.val + 1) (by omega) le_rfl]
        apply Finset.prod_eq_zero (Finset.mem_univ (Fin.last col.val))
        exact hp
      · refine Or.inl ⟨_, by simp only [Option.bind_some]; rw [if_neg hp], ?_, ?_⟩
        · have hst := LUInv.step (col := col.castSucc) hI hp
          rw [show col.val + 1 = col.castSucc.val + 1 from rfl, luElim_loop]
          exact hst
        · intro q hq
          rw [show col.val + 1 = col.castSucc.val + 1 from rfl, luElim_loop]
          simp only [Matrix.of_apply]
          rw [if_neg (by rw [Fin.lt_def]; simp only [Fin.val_castSucc]; omega)]
          by_cases h : q = col
          · rw [h]; exact hp
          · have : q.val ≠ col.val := fun h' => h (Fin.ext h')
            exact hd q (by omega)
    · exact Or.inr ⟨rfl, h⟩

end Mathter
