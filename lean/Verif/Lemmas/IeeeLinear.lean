import Verif.Lemmas.LinearSolve
import Verif.Model.IeeeLinear

/-! # Lemmas about elimination steps, the triangular solvers, the LU decompositions and the Bareiss algorithm with NaN -/

namespace Mathter

namespace Fx
variable {fl : ℝ → Fx}

theorem add_nan' (a : Fx) : add fl a .nan = .nan := by rcases a with _ | (_ | _) | x <;> rfl
theorem nan_add' (a : Fx) : add fl .nan a = .nan := by rcases a with _ | (_ | _) | x <;> rfl
theorem mul_nan' (a : Fx) : mul fl a .nan = .nan := by rcases a with _ | (_ | _) | x <;> rfl
theorem nan_mul' (a : Fx) : mul fl .nan a = .nan := by rcases a with _ | (_ | _) | x <;> rfl
theorem div_nan' (a : Fx) : div fl a .nan = .nan := by rcases a with _ | (_ | _) | x <;> rfl
theorem nan_div' (a : Fx) : div fl .nan a = .nan := by rcases a with _ | (_ | _) | x <;> rfl
theorem sub_nan' (a : Fx) : sub fl a .nan = .nan := add_nan' a
theorem nan_sub' (a : Fx) : sub fl .nan a = .nan := nan_add' _

theorem IsMulAdd.nan1 {op : Fx → Fx → Fx → Fx} (h : IsMulAdd fl op) (b d : Fx) : op .nan b d = .nan := by
  rcases h .nan b d with e | e <;> rw [e, nan_mul', nan_add']
theorem IsMulAdd.nan2 {op : Fx → Fx → Fx → Fx} (h : IsMulAdd fl op) (a d : Fx) : op a .nan d = .nan := by
  rcases h a .nan d with e | e <;> rw [e, mul_nan', nan_add']
theorem IsMulAdd.nan3 {op : Fx → Fx → Fx → Fx} (h : IsMulAdd fl op) (a b : Fx) : op a b .nan = .nan := by
  rcases h a b .nan with e | e <;> rw [e, add_nan']

theorem IsMulSub.nan1 {op : Fx → Fx → Fx → Fx} (h : IsMulSub fl op) (a b : Fx) : op .nan a b = .nan := by
  rcases h .nan a b with e | e <;> rw [e, nan_sub']
theorem IsMulSub.nan2 {op : Fx → Fx → Fx → Fx} (h : IsMulSub fl op) (d b : Fx) : op d .nan b = .nan := by
  rcases h d .nan b with e | e <;> rw [e, nan_mul', sub_nan']
theorem IsMulSub.nan3 {op : Fx → Fx → Fx → Fx} (h : IsMulSub fl op) (d a : Fx) : op d a .nan = .nan := by
  rcases h d a .nan with e | e <;> rw [e, mul_nan', sub_nan']

theorem IsProdDiff.nan1 {pd : Fx → Fx → Fx → Fx → Fx} (h : IsProdDiff fl pd) (b c d : Fx) : pd .nan b c d = .nan := by
  rcases h .nan b c d with e | e | e <;> rw [e, nan_mul', nan_sub']
theorem IsProdDiff.nan2 {pd : Fx → Fx → Fx → Fx → Fx} (h : IsProdDiff fl pd) (a c d : Fx) : pd a .nan c d = .nan := by
  rcases h a .nan c d with e | e | e <;> rw [e, mul_nan', nan_sub']
theorem IsProdDiff.nan3 {pd : Fx → Fx → Fx → Fx → Fx} (h : IsProdDiff fl pd) (a b d : Fx) : pd a b .nan d = .nan := by
  rcases h a b .nan d with e | e | e <;> rw [e, nan_mul', sub_nan']
theorem IsProdDiff.nan4 {pd : Fx → Fx → Fx → Fx → Fx} (h : IsProdDiff fl pd) (a b c : Fx) : pd a b c .nan = .nan := by
  rcases h a b c .nan with e | e | e <;> rw [e, mul_nan', sub_nan']

end Fx

namespace Ie
variable {n m : ℕ} {fl : ℝ → Fx} {op : Fx → Fx → Fx → Fx}

/-! ## Triangular solvers -/

theorem elimDown_eq (op : Fx → Fx → Fx → Fx) (row : Fin n) (ra : Fin n → Fx) (rb : Fin m → Fx) (s : Matrix (Fin n) (Fin n) Fx × Matrix (Fin n) (Fin m) Fx) :
    forDown row.val (fun t => elimTarget op row ⟨t.val, by omega⟩ ra rb) s
      = (Matrix.of fun i j => if i < row then op (s.1 i j) (s.1 i row) (ra j) else s.1 i j,
         Matrix.of fun i j => if i < row then op (s.2 i j) (s.1 i row) (rb j) else s.2 i j) := by
  have := forDown_inv (n := row.val) (body := fun t => elimTarget op row ⟨t.val, by omega⟩ ra rb) (s := s)
    (fun k s' => s' = (Matrix.of fun i j => if k ≤ i.val ∧ i < row then op (s.1 i j) (s.1 i row) (ra j) else s.1 i j,
         Matrix.of fun i j => if k ≤ i.val ∧ i < row then op (s.2 i j) (s.1 i row) (rb j) else s.2 i j)) ?_ ?_
  · rw [this]; simp
  · ext i j
    · simp only [Matrix.of_apply]; rw [if_neg (by omega)]
    · simp only [Matrix.of_apply]; rw [if_neg (by omega)]
  · rintro t _ rfl
    unfold elimTarget
    ext i j
    · simp only [Matrix.updateRow_apply, Matrix.of_apply]
      by_cases h : i = ⟨t.val, by omega⟩
      · subst h; simp [Fin.lt_def]
      · have : t.val ≠ i.val := fun h' => h (Fin.ext h'.symm)
        rw [if_neg h]
        by_cases h2 : t.val ≤ i.val ∧ i < row
        · rw [if_pos h2, if_pos ⟨by omega, h2.2⟩]
        · rw [if_neg h2, if_neg (by omega)]
    · simp only [Matrix.updateRow_apply, Matrix.of_apply]
      by_cases h : i = ⟨t.val, by omega⟩
      · subst h; simp [Fin.lt_def]
      · have : t.val ≠ i.val := fun h' => h (Fin.ext h'.symm)
        rw [if_neg h]
        by_cases h2 : t.val ≤ i.val ∧ i < row
        · rw [if_pos h2, if_pos ⟨by omega, h2.2⟩]
        · rw [if_neg h2, if_neg (by omega)]

theorem elimUp_eq (op : Fx → Fx → Fx → Fx) (row : Fin n) (ra : Fin n → Fx) (rb : Fin m → Fx) (s : Matrix (Fin n) (Fin n) Fx × Matrix (Fin n) (Fin m) Fx) :
    forUp n (row.val + 1) (fun t => elimTarget op row t ra rb) s
      = (Matrix.of fun i j => if row < i then op (s.1 i j) (s.1 i row) (ra j) else s.1 i j,
         Matrix.of fun i j => if row < i then op (s.2 i j) (s.1 i row) (rb j) else s.2 i j) := by
  have := forUp_inv (n := n) (lo := row.val + 1) (body := fun t => elimTarget op row t ra rb) (s := s)
    (fun k s' => s' = (Matrix.of fun i j => if i.val < k ∧ row < i then op (s.1 i j) (s.1 i row) (ra j) else s.1 i j,
         Matrix.of fun i j => if i.val < k ∧ row < i then op (s.2 i j) (s.1 i row) (rb j) else s.2 i j)) (by omega) ?_ ?_
  · rw [this]; simp
  · ext i j
    · simp only [Matrix.of_apply]; rw [if_neg (by omega)]
    · simp only [Matrix.of_apply]; rw [if_neg (by omega)]
  · rintro t _ ht rfl
    unfold elimTarget
    have ht' : row < t := ht
    ext i j
    · simp only [Matrix.updateRow_apply, Matrix.of_apply]
      by_cases h : i = t
      · subst h; simp [ht']
      · have : t.val ≠ i.val := fun h' => h (Fin.ext h'.symm)
        rw [if_neg h]
        by_cases h2 : i.val < t.val ∧ row < i
        · rw [if_pos h2, if_pos ⟨by omega, h2.2⟩]
        · rw [if_neg h2, if_neg (by omega)]
    · simp only [Matrix.updateRow_apply, Matrix.of_apply]
      by_cases h : i = t
      · subst h; simp [ht']
      · have : t.val ≠ i.val := fun h' => h (Fin.ext h'.symm)
        rw [if_neg h]
        by_cases h2 : i.val < t.val ∧ row < i
        · rw [if_pos h2, if_pos ⟨by omega, h2.2⟩]
        · rw [if_neg h2, if_neg (by omega)]

theorem solveUpperStep_eq (fl : ℝ → Fx) (op : Fx → Fx → Fx → Fx) (row : Fin n) (s : Matrix (Fin n) (Fin n) Fx × Matrix (Fin n) (Fin m) Fx) :
    solveUpperStep fl op row s =
      (Matrix.of fun i j => if i = row then Fx.div fl (s.1 row j) (s.1 row row)
        else if i < row then op (s.1 i j) (s.1 i row) (Fx.div fl (s.1 row j) (s.1 row row)) else s.1 i j,
       Matrix.of fun i j => if i = row then Fx.div fl (s.2 row j) (s.1 row row)
        else if i < row then op (s.2 i j) (s.1 i row) (Fx.div fl (s.2 row j) (s.1 row row)) else s.2 i j) := by
  unfold solveUpperStep
  dsimp only
  rw [elimDown_eq]
  congr 1
  · ext i j
    simp only [Matrix.of_apply, Matrix.updateRow_apply]
    by_cases h : i = row <;> simp [h]
  · ext i j
    simp only [Matrix.of_apply, Matrix.updateRow_apply]
    by_cases h : i = row <;> simp [h]

theorem solveLowerStep_eq (fl : ℝ → Fx) (op : Fx → Fx → Fx → Fx) (row : Fin n) (s : Matrix (Fin n) (Fin n) Fx × Matrix (Fin n) (Fin m) Fx) :
    solveLowerStep fl op row s =
      (Matrix.of fun i j => if i = row then Fx.div fl (s.1 row j) (s.1 row row)
        else if row < i then op (s.1 i j) (s.1 i row) (Fx.div fl (s.1 row j) (s.1 row row)) else s.1 i j,
       Matrix.of fun i j => if i = row then Fx.div fl (s.2 row j) (s.1 row row)
        else if row < i then op (s.2 i j) (s.1 i row) (Fx.div fl (s.2 row j) (s.1 row row)) else s.2 i j) := by
  unfold solveLowerStep
  dsimp only
  rw [elimUp_eq]
  congr 1
  · ext i j
    simp only [Matrix.of_apply, Matrix.updateRow_apply]
    by_cases h : i = row <;> simp [h]
  · ext i j
    simp only [Matrix.of_apply, Matrix.updateRow_apply]
    by_cases h : i = row <;> simp [h]

/-- A NaN on the right-hand side stays. -/
theorem solveUpper_rhs (hop : Fx.IsMulSub fl op) (A : Matrix (Fin n) (Fin n) Fx) (b : Matrix (Fin n) (Fin m) Fx) {i : Fin n} {j : Fin m} (h : b i j = .nan) :
    solveUpper fl op A b i j = .nan := by
  unfold solveUpper
  refine forDown_inv (n := n) (body := fun row => solveUpperStep fl op row) (s := (A, b)) (fun _ s => s.2 i j = .nan) h fun row s hs => ?_
  rw [solveUpperStep_eq]
  simp only [Matrix.of_apply]
  split
  · rename_i e; rw [← e, hs, Fx.nan_div']
  · split
    · rw [hs, hop.nan1]
    · exact hs

theorem solveLower_rhs (hop : Fx.IsMulSub fl op) (A : Matrix (Fin n) (Fin n) Fx) (b : Matrix (Fin n) (Fin m) Fx) {i : Fin n} {j : Fin m} (h : b i j = .nan) :
    solveLower fl op A b i j = .nan := by
  unfold solveLower
  refine forUp_inv (n := n) (lo := 0) (body := fun row => solveLowerStep fl op row) (s := (A, b)) (fun _ s => s.2 i j = .nan) (Nat.zero_le _) h
    fun row s _ hs => ?_
  rw [solveLowerStep_eq]
  simp only [Matrix.of_apply]
  split
  · rename_i e; rw [← e, hs, Fx.nan_div']
  · split
    · rw [hs, hop.nan1]
    · exact hs

/-- A NaN in the matrix makes a row of the solution NaN. -/
theorem solveUpper_mat (hop : Fx.IsMulSub fl op) (A : Matrix (Fin n) (Fin n) Fx) (b : Matrix (Fin n) (Fin m) Fx) {i k : Fin n} (h : A i k = .nan) (j : Fin m) :
    solveUpper fl op A b (min i k) j = .nan := by
  unfold solveUpper
  have := forDown_inv (n := n) (body := fun row => solveUpperStep fl op row) (s := (A, b))
    (fun t s => (i.val < t ∧ k.val < t → s.1 i k = .nan) ∧ (k.val < t ∧ t ≤ i.val → s.1 k k = .nan) ∧ (t ≤ k.val ∧ k ≤ i → s.2 k j = .nan) ∧
      (i < k ∧ t ≤ k.val → s.2 i j = .nan))
    ⟨fun _ => h, fun h => by omega, fun h => by omega, fun h => by omega⟩ fun row s hs => ?_
  · rcases le_or_gt k i with hk | hk
    · rw [min_eq_right hk]; exact this.2.2.1 ⟨Nat.zero_le _, hk⟩
    · rw [min_eq_left hk.le]; exact this.2.2.2 ⟨hk, Nat.zero_le _⟩
  · obtain ⟨h1, h2, h3, h4⟩ := hs
    rw [solveUpperStep_eq]
    simp only [Matrix.of_apply]
    refine ⟨fun e => ?_, fun e => ?_, fun e => ?_, fun e => ?_⟩
    · rw [if_neg (fun e' => by subst e'; omega), if_pos (Fin.lt_def.2 e.1), h1 ⟨by omega, by omega⟩, hop.nan1]
    · rw [if_neg (fun e' => by subst e'; omega), if_pos (Fin.lt_def.2 e.1)]
      by_cases hr : i = row
      · subst hr; rw [h1 ⟨by omega, by omega⟩, Fx.nan_div', hop.nan3]
      · have : row.val ≠ i.val := fun h' => hr (Fin.ext h'.symm)
        rw [h2 ⟨by omega, by omega⟩, hop.nan1]
    · by_cases hr : k = row
      · subst hr
        rw [if_pos rfl]
        by_cases hi : i = k
        · subst hi; rw [h1 ⟨by omega, by omega⟩, Fx.div_nan']
        · have h' : i.val ≠ k.val := fun h' => hi (Fin.ext h')
          have := Fin.le_def.1 e.2
          rw [h2 ⟨by omega, by omega⟩, Fx.div_nan']
      · have : k.val ≠ row.val := fun h' => hr (Fin.ext h')
        rw [if_neg hr, if_neg (by rw [Fin.lt_def]; omega)]
        exact h3 ⟨by omega, e.2⟩
    · have hik := Fin.lt_def.1 e.1
      by_cases hr : k = row
      · subst hr
        rw [if_neg (ne_of_lt e.1), if_pos e.1, h1 ⟨by omega, by omega⟩, hop.nan2]
      · have : k.val ≠ row.val := fun h' => hr (Fin.ext h')
        have h' := h4 ⟨e.1, by omega⟩
        split
        · rename_i e'; rw [← e', h', Fx.nan_div']
        · split
          · rw [h', hop.nan1]
          · exact h'

theorem solveLower_mat (hop : Fx.IsMulSub fl op) (A : Matrix (Fin n) (Fin n) Fx) (b : Matrix (Fin n) (Fin m) Fx) {i k : Fin n} (h : A i k = .nan) (j : Fin m) :
    solveLower fl op A b (max i k) j = .nan := by
  unfold solveLower
  have := forUp_inv (n := n) (lo := 0) (body := fun row => solveLowerStep fl op row) (s := (A, b))
    (fun t s => (t ≤ i.val ∧ t ≤ k.val → s.1 i k = .nan) ∧ (i.val < t ∧ t ≤ k.val → s.1 k k = .nan) ∧ (k.val < t ∧ i ≤ k → s.2 k j = .nan) ∧
      (k < i ∧ k.val < t → s.2 i j = .nan)) (Nat.zero_le _)
    ⟨fun _ => h, fun h => by omega, fun h => by omega, fun h => by omega⟩ fun row s _ hs => ?_
  · rcases le_or_gt i k with hk | hk
    · rw [max_eq_right hk]; exact this.2.2.1 ⟨k.isLt, hk⟩
    · rw [max_eq_left hk.le]; exact this.2.2.2 ⟨hk, k.isLt⟩
  · obtain ⟨h1, h2, h3, h4⟩ := hs
    rw [solveLowerStep_eq]
    simp only [Matrix.of_apply]
    refine ⟨fun e => ?_, fun e => ?_, fun e => ?_, fun e => ?_⟩
    · rw [if_neg (fun e' => by subst e'; omega), if_pos (by rw [Fin.lt_def]; omega), h1 ⟨by omega, by omega⟩, hop.nan1]
    · rw [if_neg (fun e' => by subst e'; omega), if_pos (by rw [Fin.lt_def]; omega)]
      by_cases hr : i = row
      · subst hr; rw [h1 ⟨by omega, by omega⟩, Fx.nan_div', hop.nan3]
      · have : row.val ≠ i.val := fun h' => hr (Fin.ext h'.symm)
        rw [h2 ⟨by omega, by omega⟩, hop.nan1]
    · by_cases hr : k = row
      · subst hr
        rw [if_pos rfl]
        by_cases hi : i = k
        · subst hi; rw [h1 ⟨by omega, by omega⟩, Fx.div_nan']
        · have h' : i.val ≠ k.val := fun h' => hi (Fin.ext h')
          have := Fin.le_def.1 e.2
          rw [h2 ⟨by omega, by omega⟩, Fx.div_nan']
      · have : k.val ≠ row.val := fun h' => hr (Fin.ext h')
        rw [if_neg hr, if_neg (by rw [Fin.lt_def]; omega)]
        exact h3 ⟨by omega, e.2⟩
    · have hik := Fin.lt_def.1 e.1
      by_cases hr : k = row
      · subst hr
        rw [if_neg (ne_of_gt e.1), if_pos e.1, h1 ⟨by omega, by omega⟩, hop.nan2]
      · have : k.val ≠ row.val := fun h' => hr (Fin.ext h')
        have h' := h4 ⟨e.1, by omega⟩
        split
        · rename_i e'; rw [← e', h', Fx.nan_div']
        · split
          · rw [h', hop.nan1]
          · exact h'

/-! ## LU -/

theorem luElim_loop (fl : ℝ → Fx) (op : Fx → Fx → Fx → Fx) (col : Fin n) (pr : Fin n → Fx) (s : LU Fx n) :
    forUp n (col.val + 1) (fun row => luElim fl op col row pr) s
      = ⟨Matrix.of fun i j => if col < i ∧ j = col then Fx.div fl (s.U i col) (pr col) else s.L i j,
         Matrix.of fun i j => if col < i then (if j = col then .fin 0 else op (s.U i j) (pr j) (Fx.div fl (s.U i col) (pr col))) else s.U i j⟩ := by
  have := forUp_inv (n := n) (lo := col.val + 1) (body := fun row => luElim fl op col row pr) (s := s)
    (fun k s' => s' = ⟨Matrix.of fun i j => if (i.val < k ∧ col < i) ∧ j = col then Fx.div fl (s.U i col) (pr col) else s.L i j,
         Matrix.of fun i j => if i.val < k ∧ col < i then (if j = col then .fin 0 else op (s.U i j) (pr j) (Fx.div fl (s.U i col) (pr col))) else s.U i j⟩)
      (by omega) ?_ ?_
  · rw [this]; simp
  · cases s with
    | mk L U =>
      rw [LU.mk.injEq]
      constructor
      · ext i j; simp only [Matrix.of_apply]; rw [if_neg (by omega)]
      · ext i j; simp only [Matrix.of_apply]; rw [if_neg (by omega)]
  · rintro t _ ht rfl
    have ht' : col < t := ht
    simp only [luElim]
    rw [LU.mk.injEq]
    constructor
    · ext i j
      simp only [Matrix.of_apply]
      by_cases h : i = t
      · subst h; simp [ht']
      · have : t.val ≠ i.val := fun h' => h (Fin.ext h'.symm)
        have e : (i.val < t.val + 1 ∧ col < i) ↔ (i.val < t.val ∧ col < i) := by omega
        simp only [h, false_and, if_false, e]
    · ext i j
      simp only [Matrix.of_apply, Matrix.updateRow_apply]
      by_cases h : i = t
      · subst h; simp [ht']
      · have : t.val ≠ i.val := fun h' => h (Fin.ext h'.symm)
        have e : (i.val < t.val + 1 ∧ col < i) ↔ (i.val < t.val ∧ col < i) := by omega
        simp only [h, false_and, if_false, e]

/-- After `k` columns a NaN is in `U`, or below the diagonal in one of the finished columns of `L`. -/
def LuNan (L U : Matrix (Fin n) (Fin n) Fx) (k : ℕ) : Prop :=
  (∃ i j, U i j = .nan) ∨ ∃ i j : Fin n, j < i ∧ j.val < k ∧ L i j = .nan

theorem LuNan.step (hop : Fx.IsMulSub fl op) {s : LU Fx n} {col : Fin n} (h : LuNan s.L s.U col.val) (pr : Fin n → Fx) :
    LuNan (forUp n (col.val + 1) (fun row => luElim fl op col row pr) s).L (forUp n (col.val + 1) (fun row => luElim fl op col row pr) s).U (col.val + 1) := by
  rw [luElim_loop]
  rcases h with ⟨i, j, h⟩ | ⟨i, j, h1, h2, h3⟩
  · by_cases hi : col < i
    · by_cases hj : j = col
      · subst hj
        refine Or.inr ⟨i, j, hi, by omega, ?_⟩
        simp only [Matrix.of_apply]
        rw [if_pos ⟨hi, trivial⟩, h, Fx.nan_div']
      · refine Or.inl ⟨i, j, ?_⟩
        simp only [Matrix.of_apply]
        rw [if_pos hi, if_neg hj, h, hop.nan1]
    · refine Or.inl ⟨i, j, ?_⟩
      simp only [Matrix.of_apply]
      rw [if_neg hi, h]
  · refine Or.inr ⟨i, j, h1, by omega, ?_⟩
    simp only [Matrix.of_apply]
    rw [if_neg (by rintro ⟨-, e⟩; subst e; omega), h3]

theorem decomposeLU_nan (hop : Fx.IsMulSub fl op) {A : Matrix (Fin (n + 1)) (Fin (n + 1)) Fx} (h : ∃ i j, A i j = .nan) :
    LuNan (decomposeLU fl op A).L (decomposeLU fl op A).U n := by
  unfold decomposeLU
  exact forUp_inv (n := n) (lo := 0) (s := (⟨one, A⟩ : LU Fx (n + 1))) (fun k s => LuNan s.L s.U k) (Nat.zero_le _) (Or.inl h)
    fun col s _ hs => hs.step (col := col.castSucc) hop _

theorem maxElementIdx_ge (a : Fin n → Fx) (lo : Fin n) : lo ≤ maxElementIdx a lo := by
  unfold maxElementIdx
  exact forUp_inv (n := n) (lo := lo.val + 1) (body := fun i best => if Fx.lt (a best) (a i) then i else best) (s := lo) (fun _ b => lo ≤ b) (by omega) le_rfl
    fun i b hi hb => by
      split
      · exact Fin.le_def.2 (by omega)
      · exact hb

theorem lupStep_nan (hop : Fx.IsMulSub fl op) {d : LUP Fx n} {col : Fin n} (h : LuNan d.L d.U col.val) (hP : Function.Injective d.P) :
    LuNan (lupStep fl op col d).L (lupStep fl op col d).U (col.val + 1) ∧ Function.Injective (lupStep fl op col d).P := by
  have hge := maxElementIdx_ge (fun i => (d.U i col).abs) col
  unfold lupStep
  dsimp only
  generalize maxElementIdx (fun i => (d.U i col).abs) col = piv at hge ⊢
  split
  · refine ⟨?_, hP⟩
    rcases h with h | ⟨i, j, h1, h2, h3⟩
    · exact Or.inl h
    · exact Or.inr ⟨i, j, h1, by omega, h3⟩
  · have hU : (d.U.updateRow piv (d.U col)).updateRow col (d.U piv) = Matrix.of fun i j => d.U (Equiv.swap col piv i) j := by
      ext i j
      simp only [Matrix.updateRow_apply, Matrix.of_apply]
      by_cases h1 : i = col
      · simp [h1]
      · by_cases h2 : i = piv
        · simp [h2]
          intro h3; rw [h3]
        · simp [h1, h2, Equiv.swap_apply_of_ne_of_ne h1 h2]
    have hP' : (fun i => if i = piv then d.P col else if i = col then d.P piv else d.P i) = fun i => d.P (Equiv.swap col piv i) := by
      funext i
      by_cases h2 : i = piv
      · simp [h2]
      · by_cases h1 : i = col
        · subst h1; rw [if_neg h2, if_pos rfl, Equiv.swap_apply_left]
        · simp [h1, h2, Equiv.swap_apply_of_ne_of_ne h1 h2]
    rw [hU, hP', swapL_loop]
    refine ⟨LuNan.step (s := ⟨_, _⟩) hop ?_ _, fun a b e => (Equiv.swap col piv).injective (hP e)⟩
    rcases h with ⟨i, j, h⟩ | ⟨i, j, h1, h2, h3⟩
    · exact Or.inl ⟨Equiv.swap col piv i, j, by simpa using h⟩
    · refine Or.inr ⟨Equiv.swap col piv i, j, ?_, h2, ?_⟩
      · by_cases e1 : i = col
        · rw [e1, Equiv.swap_apply_left]; exact lt_of_lt_of_le (Fin.lt_def.2 h2) hge
        · by_cases e2 : i = piv
          · rw [e2, Equiv.swap_apply_right]; exact Fin.lt_def.2 h2
          · rw [Equiv.swap_apply_of_ne_of_ne e1 e2]; exact h1
      · simp only [Matrix.of_apply]
        rw [if_pos h2, Equiv.swap_apply_self, h3]

theorem decomposeLUP_nan (hop : Fx.IsMulSub fl op) {A : Matrix (Fin (n + 1)) (Fin (n + 1)) Fx} (h : ∃ i j, A i j = .nan) :
    LuNan (decomposeLUP fl op A).L (decomposeLUP fl op A).U n ∧ Function.Injective (decomposeLUP fl op A).P := by
  unfold decomposeLUP
  exact forUp_inv (n := n) (lo := 0) (s := (⟨one, A, id⟩ : LUP Fx (n + 1))) (fun k d => LuNan d.L d.U k ∧ Function.Injective d.P) (Nat.zero_le _)
    ⟨Or.inl h, Function.injective_id⟩ fun col d _ hd => lupStep_nan (col := col.castSucc) hop hd.1 hd.2

theorem decomposeLUP_perm (fl : ℝ → Fx) (op : Fx → Fx → Fx → Fx) (A : Matrix (Fin (n + 1)) (Fin (n + 1)) Fx) :
    Function.Bijective (decomposeLUP fl op A).P := by
  refine Finite.injective_iff_bijective.1 ?_
  unfold decomposeLUP
  refine forUp_inv (n := n) (lo := 0) (body := fun col => lupStep fl op col.castSucc) (s := (⟨one, A, id⟩ : LUP Fx (n + 1)))
    (fun _ d => Function.Injective d.P) (Nat.zero_le _) Function.injective_id fun col d _ hP => ?_
  unfold lupStep
  dsimp only
  generalize maxElementIdx (fun i => (d.U i col.castSucc).abs) col.castSucc = piv
  split
  · exact hP
  · have hP' : (fun i => if i = piv then d.P col.castSucc else if i = col.castSucc then d.P piv else d.P i) = fun i => d.P (Equiv.swap col.castSucc piv i) := by
      funext i
      by_cases h2 : i = piv
      · simp [h2]
      · by_cases h1 : i = col.castSucc
        · subst h1; rw [if_neg h2, if_pos rfl, Equiv.swap_apply_left]
        · simp [h1, h2, Equiv.swap_apply_of_ne_of_ne h1 h2]
    show Function.Injective fun i => if i = piv then d.P col.castSucc else if i = col.castSucc then d.P piv else d.P i
    rw [hP']
    exact fun a b e => (Equiv.swap col.castSucc piv).injective (hP e)

theorem luSolve_nan (hop : Fx.IsMulSub fl op) {L U : Matrix (Fin n) (Fin n) Fx} {k : ℕ} (h : LuNan L U k) (b : Matrix (Fin n) (Fin m) Fx) :
    ∃ i, ∀ j, luSolve fl op L U b i j = .nan := by
  unfold luSolve
  rcases h with ⟨i, j, h⟩ | ⟨i, j, -, -, h⟩
  · exact ⟨_, fun q => solveUpper_mat hop U _ h q⟩
  · exact ⟨_, fun q => solveUpper_rhs hop U _ (solveLower_mat hop L b h q)⟩

theorem luSolveFollow_nan (hop : Fx.IsMulSub fl op) {L U : Matrix (Fin n) (Fin n) Fx} {k : ℕ} (h : LuNan L U k) (b : Matrix (Fin m) (Fin n) Fx) :
    ∃ i, ∀ j, luSolveFollow fl op L U b j i = .nan := by
  unfold luSolveFollow solveLowerFollow solveUpperFollow
  rcases h with ⟨i, j, h⟩ | ⟨i, j, -, -, h⟩
  · exact ⟨_, fun q => by
      rw [Matrix.transpose_apply, Matrix.transpose_transpose]
      exact solveUpper_rhs hop _ _ (solveLower_mat hop U.transpose b.transpose (i := j) (k := i) h q)⟩
  · exact ⟨_, fun q => by
      rw [Matrix.transpose_apply]
      exact solveUpper_mat hop L.transpose _ (i := j) (k := i) h q⟩

/-! ## The Bareiss algorithm -/

variable {pd : Fx → Fx → Fx → Fx → Fx}

/-- The elimination loops compute every trailing element from the values before the loops. -/
theorem bareissElim_eq (fl : ℝ → Fx) (pd : Fx → Fx → Fx → Fx → Fx) (k : Fin n) (minor : Fx) (a : Fin n → Fin n → Fx) (r c : Fin n) :
    bareissElim fl pd k minor a r c = if k < r ∧ k < c then Fx.div fl (pd (a r c) (a k k) (a r k) (a k c)) minor else a r c := by
  have inner : ∀ (i : Fin n) (_ : k.val + 1 ≤ i.val) (x : Fin n → Fin n → Fx) (r c : Fin n),
      forUp n (k.val + 1) (fun j a => fun r c => if r = i ∧ c = j then Fx.div fl (pd (a i j) (a k k) (a i k) (a k j)) minor else a r c) x r c
        = if r = i ∧ k < c then Fx.div fl (pd (x i c) (x k k) (x i k) (x k c)) minor else x r c := by
    intro i hi x
    have := forUp_inv (n := n) (lo := k.val + 1)
      (body := fun j a => fun r c => if r = i ∧ c = j then Fx.div fl (pd (a i j) (a k k) (a i k) (a k j)) minor else a r c) (s := x)
      (fun t y => ∀ r c : Fin n, y r c = if r = i ∧ k < c ∧ c.val < t then Fx.div fl (pd (x i c) (x k k) (x i k) (x k c)) minor else x r c)
      k.isLt (by intro r c; rw [if_neg]; rintro ⟨_, h1, h2⟩; simp only [Fin.lt_def] at h1; omega) (by
        intro j y hj hy r c
        have hki : k ≠ i := by intro e; subst e; omega
        dsimp only
        rw [hy i j, hy k k, hy i k, hy k j, hy r c]
        simp only [Fin.lt_def, hki, lt_self_iff_false, false_and, and_false, if_false]
        by_cases hr : r = i
        · by_cases hc : c = j
          · subst hr hc
            simp
            intro h; omega
          · have : c.val ≠ j.val := fun e => hc (Fin.ext e)
            simp only [hr, hc, and_false, if_false, true_and]
            congr 1
            apply propext
            omega
        · simp [hr])
    intro r c
    rw [this r c]
    simp
  unfold bareissElim
  have := forUp_inv (n := n) (lo := k.val + 1) (body := fun i a => forUp n (k.val + 1) (fun j a =>
    fun r c => if r = i ∧ c = j then Fx.div fl (pd (a i j) (a k k) (a i k) (a k j)) minor else a r c) a) (s := a)
    (fun t y => ∀ r c : Fin n, y r c = if (k < r ∧ r.val < t) ∧ k < c then Fx.div fl (pd (a r c) (a k k) (a r k) (a k c)) minor else a r c)
    k.isLt (by intro r c; rw [if_neg]; rintro ⟨⟨h1, h2⟩, _⟩; simp only [Fin.lt_def] at h1; omega) (by
      intro i y hi hy r c
      rw [inner i hi y r c, hy i c, hy k k, hy i k, hy k c, hy r c]
      simp only [Fin.lt_def, lt_self_iff_false, false_and, and_false, if_false]
      by_cases hr : r = i
      · subst hr
        have hk : k < r := hi
        simp [hk]
      · have : r.val ≠ i.val := fun e => hr (Fin.ext e)
        simp only [hr, false_and, if_false]
        congr 1
        apply propext
        omega)
  rw [this r c]
  simp

/-- Every row from `t` on has a NaN in the columns from `t` on. -/
def RowsNan (a : Fin n → Fin n → Fx) (t : ℕ) : Prop := ∀ i : Fin n, t ≤ i.val → ∃ c : Fin n, t ≤ c.val ∧ a i c = .nan

/-- What holds before iteration `t`: `RowsNan`, and the row of the previous pivot has a NaN too. -/
def RowsNan' (a : Fin n → Fin n → Fx) (t : ℕ) : Prop :=
  RowsNan a t ∧ ∀ kp : Fin n, kp.val + 1 = t → ∃ c : Fin n, kp.val ≤ c.val ∧ a kp c = .nan

theorem RowsNan.elim (hpd : Fx.IsProdDiff fl pd) {a : Fin n → Fin n → Fx} {k : Fin n} (h : RowsNan a k.val) (minor : Fx) :
    RowsNan' (bareissElim fl pd k minor a) (k.val + 1) := by
  refine ⟨fun i hi => ?_, fun kp hkp => ?_⟩
  · obtain ⟨c, hc, e⟩ := h i (by omega)
    have hki : k < i := Fin.lt_def.2 (by omega)
    by_cases hck : c = k
    · refine ⟨i, hi, ?_⟩
      rw [bareissElim_eq, if_pos ⟨hki, hki⟩, ← hck, e, hpd.nan3, Fx.nan_div']
    · have : c.val ≠ k.val := fun h' => hck (Fin.ext h')
      have hkc : k < c := Fin.lt_def.2 (by omega)
      refine ⟨c, hkc, ?_⟩
      rw [bareissElim_eq, if_pos ⟨hki, hkc⟩, e, hpd.nan1, Fx.nan_div']
  · have e : kp = k := Fin.ext (by omega)
    subst e
    obtain ⟨c, hc, e⟩ := h kp le_rfl
    refine ⟨c, hc, ?_⟩
    rw [bareissElim_eq, if_neg (fun h => lt_irrefl _ h.1), e]

/-- The loop that swaps rows keeps `RowsNan`. -/
theorem RowsNan'.pivot {b : Bareiss Fx n} {k kp : Fin n} (hk : kp.val + 1 = k.val) (h : RowsNan' b.inPlace k.val) :
    RowsNan (forUp n k.val (bareissPivotStep kp) (b, b.inPlace kp kp)).1.inPlace k.val := by
  by_cases h0 : b.inPlace kp kp = .nan
  · have := forUp_inv (n := n) (lo := k.val) (body := bareissPivotStep kp) (s := (b, b.inPlace kp kp)) (fun _ s => s = (b, b.inPlace kp kp))
      k.isLt.le rfl (by
        rintro i _ - rfl
        unfold bareissPivotStep
        simp only
        rw [if_neg (by rw [h0]; simp [Fx.isZero])])
    rw [this]
    exact h.1
  · have h' : ∀ i : Fin n, kp.val ≤ i.val → ∃ c : Fin n, k.val ≤ c.val ∧ b.inPlace i c = .nan := by
      intro i hi
      by_cases e : i = kp
      · subst e
        obtain ⟨c, hc, e⟩ := h.2 i hk
        refine ⟨c, ?_, e⟩
        have : c.val ≠ i.val := fun h' => h0 (by rw [← Fin.ext h']; rw [Fin.ext h'] at e ⊢; exact e)
        omega
      · have : i.val ≠ kp.val := fun h' => e (Fin.ext h')
        exact h.1 i (by omega)
    have := forUp_inv (n := n) (lo := k.val) (body := bareissPivotStep kp) (s := (b, b.inPlace kp kp))
      (fun _ s => ∀ i : Fin n, kp.val ≤ i.val → ∃ c : Fin n, k.val ≤ c.val ∧ s.1.inPlace i c = .nan) k.isLt.le h' (by
        rintro i s hi hs
        unfold bareissPivotStep
        dsimp only
        split
        · split
          · intro r hr
            dsimp only
            by_cases h1 : r = i
            · subst h1; simp only [if_true]; exact hs kp le_rfl
            · by_cases h2 : r = kp
              · subst h2; simp only [h1, if_false, if_true]; exact hs i (by omega)
              · simp only [h1, h2, if_false]; exact hs r hr
          · exact hs
        · exact hs)
    exact fun i hi => this i (by omega)

end Ie

end Mathter
