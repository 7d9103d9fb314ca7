import Verif.Model.RoundedSVDSolve
import Verif.Model.Loop
import Verif.Spec.Frobenius

/-!
# Solving with a computed singular value decomposition: error bounds
-/

namespace Mathter.Fl
open Mathter
variable {l r k n m : ℕ}

theorem frob_neg (M : Matrix (Fin m) (Fin n) ℝ) : frob (-M) = frob M := by
  unfold frob
  simp

theorem frob_sub_le (A B : Matrix (Fin m) (Fin n) ℝ) : frob (A - B) ≤ frob A + frob B := by
  rw [sub_eq_add_neg, ← frob_neg B]
  exact frob_add_le A (-B)

theorem frob_sub_comm (A B : Matrix (Fin m) (Fin n) ℝ) : frob (A - B) = frob (B - A) := by
  rw [← frob_neg, neg_sub]

/-- The triangle inequality through a third matrix. -/
theorem frob_le_add {A B : Matrix (Fin m) (Fin n) ℝ} {a b : ℝ} (h1 : frob (A - B) ≤ a) (h2 : frob B ≤ b) : frob A ≤ a + b := by
  have := frob_add_le (A - B) B
  rw [sub_add_cancel] at this
  linarith

/-- The error of a rounded product, in norm. -/
theorem frob_product {A : Matrix (Fin l) (Fin m) ℝ} {B : Matrix (Fin m) (Fin n) ℝ} {C : Matrix (Fin l) (Fin n) ℝ} {g : ℝ} (hg : 0 ≤ g)
    (h : ∀ i j, |C i j - ∑ q, A i q * B q j| ≤ g * ∑ q, |A i q * B q j|) : frob (C - A * B) ≤ g * (frob A * frob B) := by
  have ab : ∀ {a b : ℕ} (M : Matrix (Fin a) (Fin b) ℝ), frob (M.map abs) = frob M := by
    intro a b M
    unfold frob
    simp
  have h1 : frob (C - A * B) ≤ g * frob (A.map abs * B.map abs) := by
    refine frob_le_mul hg fun i j => ?_
    rw [Matrix.sub_apply, Matrix.mul_apply, Matrix.mul_apply]
    refine (h i j).trans (mul_le_mul_of_nonneg_left ?_ hg)
    refine le_trans (le_of_eq ?_) (le_abs_self _)
    exact Finset.sum_congr rfl fun q _ => by rw [abs_mul]; rfl
  refine h1.trans (mul_le_mul_of_nonneg_left ?_ hg)
  have := frob_mul_le (A.map abs) (B.map abs)
  rwa [ab, ab] at this

section near
variable {U P : Matrix (Fin r) (Fin n) ℝ} {ε : ℝ}

/-- A matrix with nearly orthonormal columns hardly changes lengths. -/
theorem near_mul (hP : P.transpose * P = 1) (hU : frob (U - P) ≤ ε) (Z : Matrix (Fin n) (Fin m) ℝ) :
    (1 - ε) * frob Z ≤ frob (U * Z) ∧ frob (U * Z) ≤ (1 + ε) * frob Z := by
  have e := frob_orth_mul hP Z
  have d : frob (U * Z - P * Z) ≤ ε * frob Z := by
    rw [← Matrix.sub_mul]
    exact (frob_mul_le _ _).trans (mul_le_mul_of_nonneg_right hU (frob_nonneg _))
  have d2 : frob (P * Z - U * Z) ≤ ε * frob Z := by rw [frob_sub_comm]; exact d
  have a := frob_le_add d le_rfl
  have b := frob_le_add d2 le_rfl
  rw [e] at a b
  constructor <;> linarith

/-- The transpose of a matrix with orthonormal columns makes nothing longer. -/
theorem orth_transpose_le (hP : P.transpose * P = 1) (Z : Matrix (Fin r) (Fin m) ℝ) : frob (P.transpose * Z) ≤ frob Z := by
  have key : ∀ x : Fin r → ℝ, norm2 (P.transpose.mulVec x) ≤ norm2 x := by
    intro x
    have h1 : norm2 (P.transpose.mulVec x) ^ 2 ≤ norm2 x * norm2 (P.transpose.mulVec x) := by
      rw [norm2_sq, ← norm2_mulVec hP]
      have e : ∑ i, P.transpose.mulVec x i ^ 2 = ∑ i, x i * P.mulVec (P.transpose.mulVec x) i := by
        have e1 : ∑ i, P.transpose.mulVec x i ^ 2 = P.transpose.mulVec x ⬝ᵥ P.transpose.mulVec x := by simp [dotProduct, sq]
        have e2 : ∑ i, x i * P.mulVec (P.transpose.mulVec x) i = x ⬝ᵥ P.mulVec (P.transpose.mulVec x) := rfl
        rw [e1, e2, Matrix.dotProduct_mulVec x P, ← Matrix.mulVec_transpose]
      rw [e]
      exact (le_abs_self _).trans (dot_abs_le _ _)
    rcases eq_or_lt_of_le (norm2_nonneg (P.transpose.mulVec x)) with h0 | h0
    · rw [← h0]; exact norm2_nonneg x
    · rw [sq] at h1
      exact le_of_mul_le_mul_right h1 h0
  rw [← frob_transpose (P.transpose * Z), ← frob_transpose Z, frob_rows, frob_rows]
  refine norm2_mono fun j => ?_
  rw [abs_of_nonneg (norm2_nonneg _), abs_of_nonneg (norm2_nonneg _)]
  exact key fun i => Z i j

theorem near_transpose_mul (hP : P.transpose * P = 1) (hU : frob (U - P) ≤ ε) (Z : Matrix (Fin r) (Fin m) ℝ) :
    frob (U.transpose * Z) ≤ (1 + ε) * frob Z := by
  have d : frob (U.transpose * Z - P.transpose * Z) ≤ ε * frob Z := by
    rw [← Matrix.sub_mul, ← Matrix.transpose_sub]
    refine (frob_mul_le _ _).trans (mul_le_mul_of_nonneg_right ?_ (frob_nonneg _))
    rw [frob_transpose]
    exact hU
  have := frob_le_add d (orth_transpose_le hP Z)
  linarith

/-- A matrix with nearly orthonormal columns, times its transpose on the left: nearly one. -/
theorem near_gram (hP : P.transpose * P = 1) (hU : frob (U - P) ≤ ε) (hε : 0 ≤ ε) (Z : Matrix (Fin n) (Fin m) ℝ) :
    frob (U.transpose * (U * Z) - Z) ≤ (2 + ε) * ε * frob Z := by
  have e : U.transpose * (U * Z) - Z = U.transpose * ((U - P) * Z) + (U - P).transpose * (P * Z) := by
    have h1 : P.transpose * (P * Z) = Z := by rw [← Matrix.mul_assoc, hP, Matrix.one_mul]
    rw [Matrix.transpose_sub, Matrix.sub_mul, Matrix.sub_mul, Matrix.mul_sub, h1]
    abel
  have f1 : frob (U.transpose * ((U - P) * Z)) ≤ (1 + ε) * (ε * frob Z) :=
    (near_transpose_mul hP hU _).trans (mul_le_mul_of_nonneg_left ((frob_mul_le _ _).trans (mul_le_mul_of_nonneg_right hU (frob_nonneg _))) (by linarith))
  have f2 : frob ((U - P).transpose * (P * Z)) ≤ ε * frob Z := by
    refine (frob_mul_le _ _).trans ?_
    rw [frob_transpose, frob_orth_mul hP]
    exact mul_le_mul_of_nonneg_right hU (frob_nonneg _)
  rw [e]
  refine (frob_add_le _ _).trans ((add_le_add f1 f2).trans (le_of_eq ?_))
  ring

/-- The size of a matrix with nearly orthonormal columns. -/
theorem near_frob (hP : P.transpose * P = 1) (hU : frob (U - P) ≤ ε) : frob U ≤ Real.sqrt n + ε := by
  have h1 : frob P = Real.sqrt n := by
    have := frob_orth_mul hP (1 : Matrix (Fin n) (Fin n) ℝ)
    rw [Matrix.mul_one] at this
    rw [this]
    unfold frob
    congr 1
    have : ∀ i : Fin n, ∑ j, (1 : Matrix (Fin n) (Fin n) ℝ) i j ^ 2 = 1 := by
      intro i
      rw [Finset.sum_eq_single i]
      · simp
      · intro j _ hj; rw [Matrix.one_apply_ne (Ne.symm hj)]; simp
      · intro hi; exact absurd (Finset.mem_univ i) hi
    simp [this]
  have := frob_le_add hU h1.le
  linarith

end near

/-! ## The loops -/

/-- A loop that scales line `i` in step `i`, and fails if the divisor is zero. -/
theorem divLoop_rows (fl : ℝ → ℝ) (S : Fin k → ℝ) (hS : ∀ i, S i ≠ 0) (X : Matrix (Fin k) (Fin m) ℝ) :
    (forUp k 0 (fun row (X : Option (Matrix (Fin k) (Fin m) ℝ)) => X.bind fun X =>
      open Classical in
      if h : row.val < k then
        if S ⟨row, h⟩ = 0 then none else some (Matrix.of fun i j => if i.val = row.val then fl (X ⟨row, h⟩ j / S ⟨row, h⟩) else X i j)
      else none) (some X)) = some (Matrix.of fun i j => fl (X i j / S i)) := by
  have := forUp_inv (n := k) (lo := 0) (body := fun row (X : Option (Matrix (Fin k) (Fin m) ℝ)) => X.bind fun X =>
      open Classical in
      if h : row.val < k then
        if S ⟨row, h⟩ = 0 then none else some (Matrix.of fun i j => if i.val = row.val then fl (X ⟨row, h⟩ j / S ⟨row, h⟩) else X i j)
      else none) (s := some X)
    (fun t st => st = some (Matrix.of fun i j => if i.val < t then fl (X i j / S i) else X i j)) (Nat.zero_le _)
    (by simp only [Nat.not_lt_zero, if_false]; rfl)
    (by
      intro i st _ hst
      rw [hst]
      simp only [Option.bind_some, dif_pos i.isLt, Fin.eta, if_neg (hS i), Option.some.injEq]
      ext a j
      simp only [Matrix.of_apply, lt_irrefl, if_false]
      by_cases ha : a.val = i.val
      · have ha' : a = i := Fin.ext ha
        subst ha'
        simp
      · rw [if_neg ha]
        by_cases hb : a.val < i.val
        · rw [if_pos hb, if_pos (by omega)]
        · rw [if_neg hb, if_neg (by omega)])
  rw [this]
  congr 1
  ext i j
  rw [Matrix.of_apply, if_pos i.isLt, Matrix.of_apply]

theorem divLoop_cols (fl : ℝ → ℝ) (S : Fin k → ℝ) (hS : ∀ i, S i ≠ 0) (X : Matrix (Fin m) (Fin k) ℝ) :
    (forUp k 0 (fun col (X : Option (Matrix (Fin m) (Fin k) ℝ)) => X.bind fun X =>
      open Classical in
      if h : col.val < k then
        if S ⟨col, h⟩ = 0 then none else some (Matrix.of fun i j => if j.val = col.val then fl (X i ⟨col, h⟩ / S ⟨col, h⟩) else X i j)
      else none) (some X)) = some (Matrix.of fun i j => fl (X i j / S j)) := by
  have := forUp_inv (n := k) (lo := 0) (body := fun col (X : Option (Matrix (Fin m) (Fin k) ℝ)) => X.bind fun X =>
      open Classical in
      if h : col.val < k then
        if S ⟨col, h⟩ = 0 then none else some (Matrix.of fun i j => if j.val = col.val then fl (X i ⟨col, h⟩ / S ⟨col, h⟩) else X i j)
      else none) (s := some X)
    (fun t st => st = some (Matrix.of fun i j => if j.val < t then fl (X i j / S j) else X i j)) (Nat.zero_le _)
    (by simp only [Nat.not_lt_zero, if_false]; rfl)
    (by
      intro i st _ hst
      rw [hst]
      simp only [Option.bind_some, dif_pos i.isLt, Fin.eta, if_neg (hS i), Option.some.injEq]
      ext j a
      simp only [Matrix.of_apply, lt_irrefl, if_false]
      by_cases ha : a.val = i.val
      · have ha' : a = i := Fin.ext ha
        subst ha'
        simp
      · rw [if_neg ha]
        by_cases hb : a.val < i.val
        · rw [if_pos hb, if_pos (by omega)]
        · rw [if_neg hb, if_neg (by omega)])
  rw [this]
  congr 1
  ext i j
  rw [Matrix.of_apply, if_pos j.isLt, Matrix.of_apply]

/-! ## Solving -/

/-- What is known about a computed decomposition, and the three steps of `Solve`: `C` is the product with the transpose of `U`, `Y` the quotients, `X` the
product with the transpose of `V`. -/
structure SolveSteps (u g ε η : ℝ) (A : Matrix (Fin r) (Fin n) ℝ) (U P : Matrix (Fin r) (Fin n) ℝ) (S : Fin n → ℝ) (V W : Matrix (Fin n) (Fin n) ℝ)
    (B : Matrix (Fin r) (Fin m) ℝ) (C Y X : Matrix (Fin n) (Fin m) ℝ) : Prop where
  orthP : P.transpose * P = 1
  nearU : frob (U - P) ≤ ε
  orthW : W.transpose * W = 1
  nearV : frob (V - W) ≤ ε
  recon : frob (U * Matrix.diagonal S * V - A) ≤ η * frob A
  ne : ∀ i, S i ≠ 0
  first : ∀ i j, |C i j - ∑ q, U q i * B q j| ≤ g * ∑ q, |U q i * B q j|
  second : ∀ i j, |Y i j - C i j / S i| ≤ u * |C i j / S i|
  third : ∀ i j, |X i j - ∑ q, V q i * Y q j| ≤ g * ∑ q, |V q i * Y q j|

namespace SolveSteps
variable {u g ε η : ℝ} {A U P : Matrix (Fin r) (Fin n) ℝ} {S : Fin n → ℝ} {V W : Matrix (Fin n) (Fin n) ℝ} {B : Matrix (Fin r) (Fin m) ℝ}
  {C Y X : Matrix (Fin n) (Fin m) ℝ}

/-- Both orders. -/
theorem orthW' (h : SolveSteps u g ε η A U P S V W B C Y X) : W.transpose.transpose * W.transpose = 1 := by
  rw [Matrix.transpose_transpose]
  exact mul_eq_one_comm.1 h.orthW

theorem nearV' (h : SolveSteps u g ε η A U P S V W B C Y X) : frob (V.transpose - W.transpose) ≤ ε := by
  rw [← Matrix.transpose_sub, frob_transpose]
  exact h.nearV

end SolveSteps

section parts
variable {u g ε η : ℝ} {U P : Matrix (Fin r) (Fin n) ℝ} {S : Fin n → ℝ} {V W : Matrix (Fin n) (Fin k) ℝ} {A : Matrix (Fin r) (Fin k) ℝ}

/-- Products with a matrix with nearly orthonormal rows on the right. -/
theorem near_right (hW : W * W.transpose = 1) (hV : frob (V - W) ≤ ε) (Z : Matrix (Fin l) (Fin n) ℝ) :
    (1 - ε) * frob Z ≤ frob (Z * V) ∧ frob (Z * V) ≤ (1 + ε) * frob Z := by
  have h1 : W.transpose.transpose * W.transpose = 1 := by rw [Matrix.transpose_transpose]; exact hW
  have h2 : frob (V.transpose - W.transpose) ≤ ε := by rw [← Matrix.transpose_sub, frob_transpose]; exact hV
  have := near_mul h1 h2 Z.transpose
  rwa [← Matrix.transpose_mul, frob_transpose, frob_transpose] at this

/-- The factors are not larger than the matrix. -/
theorem factor_size (hP : P.transpose * P = 1) (hU : frob (U - P) ≤ ε) (hW : W * W.transpose = 1) (hV : frob (V - W) ≤ ε)
    (hA : frob (U * Matrix.diagonal S * V - A) ≤ η * frob A) (hε : ε ≤ 1 / 100) (hη : η ≤ 1 / 100) :
    frob (U * Matrix.diagonal S * V) ≤ 1.01 * frob A ∧ frob (U * Matrix.diagonal S) ≤ 1.021 * frob A ∧ frob (Matrix.diagonal S) ≤ 1.032 * frob A := by
  have a0 := frob_nonneg A
  have h1 : frob (U * Matrix.diagonal S * V) ≤ 1.01 * frob A := by
    have := frob_le_add hA le_rfl
    have e : η * frob A ≤ 1 / 100 * frob A := mul_le_mul_of_nonneg_right hη a0
    linarith
  have h2 := (near_right hW hV (U * Matrix.diagonal S)).1
  have h3 := (near_mul hP hU (Matrix.diagonal S)).1
  have e2 : (1 - 1 / 100) * frob (U * Matrix.diagonal S) ≤ (1 - ε) * frob (U * Matrix.diagonal S) :=
    mul_le_mul_of_nonneg_right (by linarith) (frob_nonneg _)
  have e3 : (1 - 1 / 100) * frob (Matrix.diagonal S) ≤ (1 - ε) * frob (Matrix.diagonal S) := mul_le_mul_of_nonneg_right (by linarith) (frob_nonneg _)
  refine ⟨h1, ?_, ?_⟩ <;> linarith

end parts

section solve
variable {u g ε η : ℝ} {A U P : Matrix (Fin r) (Fin n) ℝ} {S : Fin n → ℝ} {V W : Matrix (Fin n) (Fin n) ℝ} {B : Matrix (Fin r) (Fin m) ℝ}
  {C Y X : Matrix (Fin n) (Fin m) ℝ}

/-- The computed solution, times the matrix, is nearly the projection of the right-hand side. -/
theorem SolveSteps.project (h : SolveSteps u g ε η A U P S V W B C Y X) (hn : 1 ≤ n) (hε0 : 0 ≤ ε) (hu0 : 0 ≤ u) (hug : u ≤ g)
    (hτ : ε + Real.sqrt n * g ≤ 1 / 100) (hη : η ≤ 1 / 100) :
    frob (A * X - U * (U.transpose * B)) ≤ (η + 2.1 * (ε + Real.sqrt n * g)) * (frob A * frob X) + 2.1 * (Real.sqrt n * g) * frob B := by
  have q1 : 1 ≤ Real.sqrt n := by rw [Real.one_le_sqrt]; exact_mod_cast hn
  have g0 : 0 ≤ g := hu0.trans hug
  have qg0 : 0 ≤ Real.sqrt n * g := mul_nonneg (by linarith) g0
  have ugq : u ≤ Real.sqrt n * g := hug.trans (le_mul_of_one_le_left g0 q1)
  have hε : ε ≤ 1 / 100 := by linarith
  have a0 := frob_nonneg A
  have x0 := frob_nonneg X
  have b0 := frob_nonneg B
  have y0 := frob_nonneg Y
  obtain ⟨-, ud, -⟩ := factor_size h.orthP h.nearU (mul_eq_one_comm.1 h.orthW) h.nearV h.recon hε hη
  have gq : ∀ z : ℝ, z ≤ Real.sqrt n + ε → g * z ≤ 1.01 * (Real.sqrt n * g) := by
    intro z hz
    have h1 : g * z ≤ g * (Real.sqrt n + ε) := mul_le_mul_of_nonneg_left hz g0
    have h2 : g * ε ≤ g * (1 / 100) := mul_le_mul_of_nonneg_left hε g0
    have h3 : g ≤ Real.sqrt n * g := le_mul_of_one_le_left g0 q1
    linarith
  -- the last product
  have t1 : frob (X - V.transpose * Y) ≤ 1.01 * (Real.sqrt n * g) * frob Y := by
    have := frob_product (A := V.transpose) (B := Y) (C := X) g0 h.third
    rw [frob_transpose, ← mul_assoc] at this
    exact this.trans (mul_le_mul_of_nonneg_right (gq _ (near_frob h.orthW h.nearV)) y0)
  have t2 : frob (V * X - Y) ≤ 2.02 * (ε + Real.sqrt n * g) * frob Y := by
    have e : V * X - Y = V * (X - V.transpose * Y) + (V.transpose.transpose * (V.transpose * Y) - Y) := by
      rw [Matrix.transpose_transpose, Matrix.mul_sub]
      abel
    have f1 := (near_mul h.orthW h.nearV (X - V.transpose * Y)).2
    have f2 := near_gram h.orthW' h.nearV' hε0 Y
    have f3 : (1 + ε) * frob (X - V.transpose * Y) ≤ 1.01 * (1.01 * (Real.sqrt n * g) * frob Y) :=
      mul_le_mul (by linarith) t1 (frob_nonneg _) (by norm_num)
    have f4 : (2 + ε) * ε * frob Y ≤ 2.01 * ε * frob Y := mul_le_mul_of_nonneg_right (mul_le_mul_of_nonneg_right (by linarith) hε0) y0
    have z1 := mul_nonneg qg0 y0
    have z2 := mul_nonneg hε0 y0
    rw [e]
    refine (frob_add_le _ _).trans ?_
    linarith
  have t3 : frob Y ≤ 1.011 * frob X := by
    have f1 := (near_mul h.orthW' h.nearV' Y).1
    have f2 : frob (V.transpose * Y) ≤ 1.01 * (Real.sqrt n * g) * frob Y + frob X := by
      rw [frob_sub_comm] at t1
      exact frob_le_add t1 le_rfl
    have f3 : (1 - 0.0101) * frob Y ≤ (1 - ε - 1.01 * (Real.sqrt n * g)) * frob Y := mul_le_mul_of_nonneg_right (by linarith) y0
    linarith
  have t4 : frob (U * Matrix.diagonal S * (V * X - Y)) ≤ 2.1 * (ε + Real.sqrt n * g) * (frob A * frob X) := by
    have τ0 : 0 ≤ ε + Real.sqrt n * g := by linarith
    have f1 : frob (V * X - Y) ≤ 2.02 * (ε + Real.sqrt n * g) * (1.011 * frob X) :=
      t2.trans (mul_le_mul_of_nonneg_left t3 (by linarith))
    have f2 := mul_le_mul ud f1 (frob_nonneg _) (by linarith)
    have z := mul_nonneg τ0 (mul_nonneg a0 x0)
    refine (frob_mul_le _ _).trans (f2.trans ?_)
    linarith
  -- the first product and the quotients
  have s1 : frob (C - U.transpose * B) ≤ 1.01 * (Real.sqrt n * g) * frob B := by
    have := frob_product (A := U.transpose) (B := B) (C := C) g0 h.first
    rw [frob_transpose, ← mul_assoc] at this
    exact this.trans (mul_le_mul_of_nonneg_right (gq _ (near_frob h.orthP h.nearU)) b0)
  have s2 : frob C ≤ 1.03 * frob B := by
    have f1 := frob_le_add s1 (near_transpose_mul h.orthP h.nearU B)
    have f2 : 1.01 * (Real.sqrt n * g) * frob B ≤ 1.01 * (1 / 100) * frob B := mul_le_mul_of_nonneg_right (by linarith) b0
    have f3 : (1 + ε) * frob B ≤ 1.01 * frob B := mul_le_mul_of_nonneg_right (by linarith) b0
    linarith
  have s3 : frob (Matrix.diagonal S * Y - C) ≤ u * frob C := by
    refine frob_le_mul hu0 fun i j => ?_
    rw [Matrix.sub_apply, Matrix.diagonal_mul]
    have e : S i * Y i j - C i j = S i * (Y i j - C i j / S i) := by
      rw [mul_sub, mul_div_cancel₀ _ (h.ne i)]
    rw [e, abs_mul]
    have := mul_le_mul_of_nonneg_left (h.second i j) (abs_nonneg (S i))
    have e2 : |S i| * (u * |C i j / S i|) = u * |C i j| := by
      rw [mul_left_comm, ← abs_mul, mul_div_cancel₀ _ (h.ne i)]
    exact this.trans e2.le
  have s4 : frob (U * (Matrix.diagonal S * Y - U.transpose * B)) ≤ 2.1 * (Real.sqrt n * g) * frob B := by
    have e : Matrix.diagonal S * Y - U.transpose * B = (Matrix.diagonal S * Y - C) + (C - U.transpose * B) := by abel
    have f1 := (near_mul h.orthP h.nearU (Matrix.diagonal S * Y - U.transpose * B)).2
    have f2 : frob (Matrix.diagonal S * Y - U.transpose * B) ≤ Real.sqrt n * g * (1.03 * frob B) + 1.01 * (Real.sqrt n * g) * frob B := by
      rw [e]
      exact (frob_add_le _ _).trans (add_le_add (s3.trans (mul_le_mul ugq s2 (frob_nonneg _) qg0)) s1)
    have f3 := mul_le_mul (by linarith : 1 + ε ≤ 1.01) f2 (frob_nonneg _) (by norm_num)
    have z := mul_nonneg qg0 b0
    refine f1.trans (f3.trans ?_)
    linarith
  have e : A * X - U * (U.transpose * B) = -((U * Matrix.diagonal S * V - A) * X) + U * Matrix.diagonal S * (V * X - Y) +
      U * (Matrix.diagonal S * Y - U.transpose * B) := by
    simp only [Matrix.mul_sub, Matrix.sub_mul, Matrix.mul_assoc]
    abel
  have s5 : frob (-((U * Matrix.diagonal S * V - A) * X)) ≤ η * (frob A * frob X) := by
    rw [frob_neg, ← mul_assoc]
    exact (frob_mul_le _ _).trans (mul_le_mul_of_nonneg_right h.recon x0)
  rw [e]
  refine (frob_add_le _ _).trans ((add_le_add ((frob_add_le _ _).trans (add_le_add s5 t4)) s4).trans (le_of_eq ?_))
  ring

/-- An orthogonal projection makes nothing longer. -/
theorem projection_le {Q : Matrix (Fin r) (Fin r) ℝ} (hQ : Q.transpose * Q = Q) (Z : Matrix (Fin r) (Fin m) ℝ) : frob (Q * Z) ≤ frob Z := by
  have key : ∀ x : Fin r → ℝ, norm2 (Q.mulVec x) ≤ norm2 x := by
    intro x
    have h1 : norm2 (Q.mulVec x) ^ 2 ≤ norm2 x * norm2 (Q.mulVec x) := by
      rw [norm2_sq]
      have e : ∑ i, Q.mulVec x i ^ 2 = ∑ i, x i * Q.mulVec x i := by
        have e1 : ∑ i, Q.mulVec x i ^ 2 = Q.mulVec x ⬝ᵥ Q.mulVec x := by simp [dotProduct, sq]
        have e2 : ∑ i, x i * Q.mulVec x i = x ⬝ᵥ Q.mulVec x := rfl
        rw [e1, e2, Matrix.dotProduct_mulVec, Matrix.vecMul_mulVec, hQ, ← Matrix.dotProduct_mulVec]
      rw [e]
      exact (le_abs_self _).trans (dot_abs_le _ _)
    rcases eq_or_lt_of_le (norm2_nonneg (Q.mulVec x)) with h0 | h0
    · rw [← h0]; exact norm2_nonneg x
    · rw [sq] at h1
      exact le_of_mul_le_mul_right h1 h0
  rw [← frob_transpose (Q * Z), ← frob_transpose Z, ← one_mul (frob Z.transpose)]
  refine frob_rows_le zero_le_one fun j => ?_
  rw [one_mul]
  exact key fun i => Z i j

/-- The projection is not farther from the right-hand side than anything in the range of the matrix, up to rounding errors. -/
theorem best_approx (hP : P.transpose * P = 1) (hU : frob (U - P) ≤ ε) (hW : W.transpose * W = 1) (hV : frob (V - W) ≤ ε)
    (hA : frob (U * Matrix.diagonal S * V - A) ≤ η * frob A) (hε0 : 0 ≤ ε) (hε : ε ≤ 1 / 100) (hη : η ≤ 1 / 100) (B : Matrix (Fin r) (Fin m) ℝ)
    (Z : Matrix (Fin n) (Fin m) ℝ) :
    frob (U * (U.transpose * B) - B) ≤ frob (A * Z - B) + (η + 1.1 * ε) * (frob A * frob Z) + 2.1 * ε * frob B := by
  have a0 := frob_nonneg A
  have b0 := frob_nonneg B
  have z0 := frob_nonneg Z
  obtain ⟨sz, -, -⟩ := factor_size hP hU (mul_eq_one_comm.1 hW) hV hA hε hη
  -- the exact projection
  have h1 : frob (P * (P.transpose * B) - B) ≤ frob (P * (Matrix.diagonal S * (V * Z)) - B) := by
    have hQ : (1 - P * P.transpose).transpose * (1 - P * P.transpose) = 1 - P * P.transpose := by
      have e : P * P.transpose * (P * P.transpose) = P * P.transpose := by
        rw [Matrix.mul_assoc, ← Matrix.mul_assoc P.transpose, hP, Matrix.one_mul]
      rw [Matrix.transpose_sub, Matrix.transpose_one, Matrix.transpose_mul, Matrix.transpose_transpose, Matrix.sub_mul, Matrix.one_mul, Matrix.mul_sub,
        Matrix.mul_one, e, sub_self, sub_zero]
    have := projection_le hQ (P * (Matrix.diagonal S * (V * Z)) - B)
    have e : (1 - P * P.transpose) * (P * (Matrix.diagonal S * (V * Z)) - B) = P * (P.transpose * B) - B := by
      have e1 : P * P.transpose * (P * (Matrix.diagonal S * (V * Z))) = P * (Matrix.diagonal S * (V * Z)) := by
        rw [Matrix.mul_assoc, ← Matrix.mul_assoc P.transpose, hP, Matrix.one_mul]
      rw [Matrix.sub_mul, Matrix.one_mul, Matrix.mul_sub, e1, Matrix.mul_assoc P P.transpose B]
      abel
    rwa [e] at this
  have h2 : frob (P * (Matrix.diagonal S * (V * Z)) - B) ≤ frob (A * Z - B) + (η + 1.1 * ε) * (frob A * frob Z) := by
    have e : P * (Matrix.diagonal S * (V * Z)) - B = (A * Z - B) + ((U * Matrix.diagonal S * V - A) * Z - (U - P) * (Matrix.diagonal S * (V * Z))) := by
      simp only [Matrix.sub_mul, Matrix.mul_assoc]
      abel
    have f1 : frob ((U * Matrix.diagonal S * V - A) * Z) ≤ η * (frob A * frob Z) := by
      rw [← mul_assoc]
      exact (frob_mul_le _ _).trans (mul_le_mul_of_nonneg_right hA z0)
    have f2 : frob (Matrix.diagonal S * (V * Z)) ≤ 1.03 * (frob A * frob Z) := by
      have g1 := (near_mul hP hU (Matrix.diagonal S * (V * Z))).1
      have g2 : frob (U * (Matrix.diagonal S * (V * Z))) ≤ 1.01 * frob A * frob Z := by
        have : U * (Matrix.diagonal S * (V * Z)) = U * Matrix.diagonal S * V * Z := by simp only [Matrix.mul_assoc]
        rw [this]
        exact (frob_mul_le _ _).trans (mul_le_mul_of_nonneg_right sz z0)
      have g3 : (1 - 1 / 100) * frob (Matrix.diagonal S * (V * Z)) ≤ (1 - ε) * frob (Matrix.diagonal S * (V * Z)) :=
        mul_le_mul_of_nonneg_right (by linarith) (frob_nonneg _)
      have := mul_nonneg a0 z0
      linarith
    have f3 : frob ((U - P) * (Matrix.diagonal S * (V * Z))) ≤ ε * (1.03 * (frob A * frob Z)) :=
      (frob_mul_le _ _).trans (mul_le_mul hU f2 (frob_nonneg _) hε0)
    have f4 := frob_sub_le ((U * Matrix.diagonal S * V - A) * Z) ((U - P) * (Matrix.diagonal S * (V * Z)))
    have z := mul_nonneg hε0 (mul_nonneg a0 z0)
    rw [e]
    refine (frob_add_le _ _).trans ?_
    linarith
  have h3 : frob (U * (U.transpose * B) - P * (P.transpose * B)) ≤ 2.1 * ε * frob B := by
    have e : U * (U.transpose * B) - P * (P.transpose * B) = U * ((U - P).transpose * B) + (U - P) * (P.transpose * B) := by
      rw [Matrix.transpose_sub, Matrix.sub_mul, Matrix.sub_mul, Matrix.mul_sub]
      abel
    have f1 : frob ((U - P).transpose * B) ≤ ε * frob B := by
      refine (frob_mul_le _ _).trans ?_
      rw [frob_transpose]
      exact mul_le_mul_of_nonneg_right hU b0
    have f2 := (near_mul hP hU ((U - P).transpose * B)).2
    have f3 : (1 + ε) * frob ((U - P).transpose * B) ≤ 1.01 * (ε * frob B) := mul_le_mul (by linarith) f1 (frob_nonneg _) (by norm_num)
    have f4 : frob ((U - P) * (P.transpose * B)) ≤ ε * frob B :=
      (frob_mul_le _ _).trans (mul_le_mul hU (orth_transpose_le hP B) (frob_nonneg _) hε0)
    have z := mul_nonneg hε0 b0
    rw [e]
    refine (frob_add_le _ _).trans ?_
    linarith
  have e : U * (U.transpose * B) - B = (U * (U.transpose * B) - P * (P.transpose * B)) + (P * (P.transpose * B) - B) := by abel
  rw [e]
  refine (frob_add_le _ _).trans ?_
  linarith

/-- The computed solution is nearly the best one. -/
theorem SolveSteps.least_squares (h : SolveSteps u g ε η A U P S V W B C Y X) (hn : 1 ≤ n) (hε0 : 0 ≤ ε) (hu0 : 0 ≤ u) (hug : u ≤ g)
    (hτ : ε + Real.sqrt n * g ≤ 1 / 100) (hη : η ≤ 1 / 100) (Z : Matrix (Fin n) (Fin m) ℝ) :
    frob (A * X - B) ≤ frob (A * Z - B) + (η + 3 * (ε + Real.sqrt n * g)) * (frob A * (frob X + frob Z)) + 3 * (ε + Real.sqrt n * g) * frob B := by
  have g0 : 0 ≤ g := hu0.trans hug
  have qg0 : 0 ≤ Real.sqrt n * g := mul_nonneg (Real.sqrt_nonneg _) g0
  have h1 := h.project hn hε0 hu0 hug hτ hη
  have h2 := best_approx h.orthP h.nearU h.orthW h.nearV h.recon hε0 (by linarith) hη B Z
  have e : A * X - B = (A * X - U * (U.transpose * B)) + (U * (U.transpose * B) - B) := by abel
  have a0 := frob_nonneg A
  have z1 := mul_nonneg hε0 (mul_nonneg a0 (frob_nonneg X))
  have z2 := mul_nonneg hε0 (mul_nonneg a0 (frob_nonneg Z))
  have z3 := mul_nonneg qg0 (mul_nonneg a0 (frob_nonneg X))
  have z4 := mul_nonneg qg0 (mul_nonneg a0 (frob_nonneg Z))
  have z5 := mul_nonneg hε0 (frob_nonneg B)
  have z6 := mul_nonneg qg0 (frob_nonneg B)
  rw [e]
  refine (frob_add_le _ _).trans ?_
  linarith

/-- Square matrices: the residual. -/
theorem SolveSteps.residual {A U P : Matrix (Fin n) (Fin n) ℝ} {B : Matrix (Fin n) (Fin m) ℝ} (h : SolveSteps u g ε η A U P S V W B C Y X) (hn : 1 ≤ n)
    (hε0 : 0 ≤ ε) (hu0 : 0 ≤ u) (hug : u ≤ g) (hτ : ε + Real.sqrt n * g ≤ 1 / 100) (hη : η ≤ 1 / 100) :
    frob (A * X - B) ≤ (η + 3 * (ε + Real.sqrt n * g)) * (frob A * frob X) + 3 * (ε + Real.sqrt n * g) * frob B := by
  have g0 : 0 ≤ g := hu0.trans hug
  have qg0 : 0 ≤ Real.sqrt n * g := mul_nonneg (Real.sqrt_nonneg _) g0
  have h1 := h.project hn hε0 hu0 hug hτ hη
  have hP : P.transpose.transpose * P.transpose = 1 := by rw [Matrix.transpose_transpose]; exact mul_eq_one_comm.1 h.orthP
  have hU : frob (U.transpose - P.transpose) ≤ ε := by rw [← Matrix.transpose_sub, frob_transpose]; exact h.nearU
  have h2 := near_gram hP hU hε0 B
  rw [Matrix.transpose_transpose] at h2
  have h3 : (2 + ε) * ε * frob B ≤ 2.01 * ε * frob B := mul_le_mul_of_nonneg_right (mul_le_mul_of_nonneg_right (by linarith) hε0) (frob_nonneg _)
  have e : A * X - B = (A * X - U * (U.transpose * B)) + (U * (U.transpose * B) - B) := by abel
  have a0 := frob_nonneg A
  have z1 := mul_nonneg hε0 (mul_nonneg a0 (frob_nonneg X))
  have z3 := mul_nonneg qg0 (mul_nonneg a0 (frob_nonneg X))
  have z5 := mul_nonneg hε0 (frob_nonneg B)
  have z6 := mul_nonneg qg0 (frob_nonneg B)
  rw [e]
  refine (frob_add_le _ _).trans ?_
  linarith

/-! ## Inverting -/

/-- The sizes in `Inverse`: `D` are the reciprocals of the singular values, `Q` the quotients, `X` the result. -/
theorem inverse_parts {V W : Matrix (Fin n) (Fin k) ℝ} (hP : P.transpose * P = 1) (hU : frob (U - P) ≤ ε) (hW : W * W.transpose = 1) (hV : frob (V - W) ≤ ε) (hn : 1 ≤ n) (hε0 : 0 ≤ ε)
    (hu0 : 0 ≤ u) (hug : u ≤ g) (hτ : ε + Real.sqrt n * g ≤ 1 / 100) {Q : Matrix (Fin k) (Fin n) ℝ} {X : Matrix (Fin k) (Fin r) ℝ}
    (h1 : ∀ i j, |Q i j - V j i / S j| ≤ u * |V j i / S j|) (h2 : ∀ i j, |X i j - ∑ q, Q i q * U j q| ≤ g * ∑ q, |Q i q * U j q|) :
    frob (X - V.transpose * Matrix.diagonal (fun i => (S i)⁻¹) * U.transpose) ≤ 2.1 * (Real.sqrt n * g) * frob (Matrix.diagonal fun i => (S i)⁻¹) ∧
      frob (Matrix.diagonal fun i => (S i)⁻¹) ≤ 1.05 * frob X ∧
      frob (V.transpose * Matrix.diagonal (fun i => (S i)⁻¹)) ≤ 1.01 * frob (Matrix.diagonal fun i => (S i)⁻¹) := by
  have q1 : 1 ≤ Real.sqrt n := by rw [Real.one_le_sqrt]; exact_mod_cast hn
  have g0 : 0 ≤ g := hu0.trans hug
  have qg0 : 0 ≤ Real.sqrt n * g := mul_nonneg (by linarith) g0
  have gqg : g ≤ Real.sqrt n * g := le_mul_of_one_le_left g0 q1
  have ugq : u ≤ Real.sqrt n * g := hug.trans gqg
  have hε : ε ≤ 1 / 100 := by linarith
  have hW' : W.transpose.transpose * W.transpose = 1 := by rw [Matrix.transpose_transpose]; exact hW
  have hV' : frob (V.transpose - W.transpose) ≤ ε := by rw [← Matrix.transpose_sub, frob_transpose]; exact hV
  set D := Matrix.diagonal fun i => (S i)⁻¹ with hD
  have d0 := frob_nonneg D
  have m1 := near_mul hW' hV' D
  have m0 := frob_nonneg (V.transpose * D)
  have m2 : frob (V.transpose * D) ≤ 1.01 * frob D := m1.2.trans (mul_le_mul_of_nonneg_right (by linarith) d0)
  have q2 : frob (Q - V.transpose * D) ≤ u * frob (V.transpose * D) := by
    refine frob_le_mul hu0 fun i j => ?_
    rw [Matrix.sub_apply, hD, Matrix.mul_diagonal, Matrix.transpose_apply, ← div_eq_mul_inv]
    exact h1 i j
  have q3 : frob Q ≤ 1.01 * frob (V.transpose * D) := by
    have f := frob_le_add q2 le_rfl
    have := mul_le_mul_of_nonneg_right (by linarith : u ≤ 1 / 100) m0
    linarith
  have right : ∀ Z : Matrix (Fin k) (Fin n) ℝ, (1 - ε) * frob Z ≤ frob (Z * U.transpose) ∧ frob (Z * U.transpose) ≤ (1 + ε) * frob Z := by
    intro Z
    have := near_mul hP hU Z.transpose
    have e : U * Z.transpose = (Z * U.transpose).transpose := by rw [Matrix.transpose_mul, Matrix.transpose_transpose]
    rwa [e, frob_transpose, frob_transpose] at this
  have x1 : frob (X - Q * U.transpose) ≤ 1.01 * (Real.sqrt n * g) * frob Q := by
    have := frob_product (A := Q) (B := U.transpose) (C := X) g0 h2
    rw [frob_transpose] at this
    have f1 : g * frob U ≤ 1.01 * (Real.sqrt n * g) := by
      have f1 := mul_le_mul_of_nonneg_left (near_frob hP hU) g0
      have f2 := mul_le_mul_of_nonneg_left hε g0
      linarith
    have f2 := mul_le_mul_of_nonneg_right f1 (frob_nonneg Q)
    linarith
  have x2 : frob ((Q - V.transpose * D) * U.transpose) ≤ 1.01 * (Real.sqrt n * g * frob (V.transpose * D)) := by
    refine (right _).2.trans (mul_le_mul (by linarith) (q2.trans (mul_le_mul_of_nonneg_right ugq m0)) (frob_nonneg _) (by norm_num))
  have x3 : frob (X - V.transpose * D * U.transpose) ≤ 2.1 * (Real.sqrt n * g) * frob D := by
    have e : X - V.transpose * D * U.transpose = (X - Q * U.transpose) + (Q - V.transpose * D) * U.transpose := by
      rw [Matrix.sub_mul]; abel
    have f1 := mul_le_mul_of_nonneg_left q3 qg0
    have f2 := mul_le_mul_of_nonneg_left m2 qg0
    have z := mul_nonneg qg0 d0
    rw [e]
    refine (frob_add_le _ _).trans ?_
    linarith
  refine ⟨x3, ?_, m2⟩
  have f1 : frob (V.transpose * D * U.transpose) ≤ 2.1 * (Real.sqrt n * g) * frob D + frob X := by
    rw [frob_sub_comm] at x3
    exact frob_le_add x3 le_rfl
  have f2 := (right (V.transpose * D)).1
  have f3 : (1 - 1 / 100) * frob D ≤ (1 - ε) * frob D := mul_le_mul_of_nonneg_right (by linarith) d0
  have f4 : (1 - 1 / 100) * frob (V.transpose * D) ≤ (1 - ε) * frob (V.transpose * D) := mul_le_mul_of_nonneg_right (by linarith) m0
  have f5 : Real.sqrt n * g * frob D ≤ 1 / 100 * frob D := mul_le_mul_of_nonneg_right (by linarith) d0
  linarith [m1.1]

/-- The number of columns, by the sizes of the singular values and their reciprocals. -/
theorem sqrt_le_cond (hS : ∀ i, S i ≠ 0) : Real.sqrt n ≤ frob (Matrix.diagonal fun i => (S i)⁻¹) * frob (Matrix.diagonal S) ∧
    frob (1 : Matrix (Fin n) (Fin n) ℝ) = Real.sqrt n := by
  have h1 : frob (1 : Matrix (Fin n) (Fin n) ℝ) = Real.sqrt n := by
    unfold frob
    congr 1
    have : ∀ i : Fin n, ∑ j, (1 : Matrix (Fin n) (Fin n) ℝ) i j ^ 2 = 1 := by
      intro i
      rw [Finset.sum_eq_single i]
      · simp
      · intro j _ hj; rw [Matrix.one_apply_ne (Ne.symm hj)]; simp
      · intro hi; exact absurd (Finset.mem_univ i) hi
    simp [this]
  have h2 : Matrix.diagonal (fun i => (S i)⁻¹) * Matrix.diagonal S = (1 : Matrix (Fin n) (Fin n) ℝ) := by
    rw [Matrix.diagonal_mul_diagonal, ← Matrix.diagonal_one]
    congr 1
    funext i
    exact inv_mul_cancel₀ (hS i)
  have h3 := frob_mul_le (Matrix.diagonal fun i => (S i)⁻¹) (Matrix.diagonal S)
  rw [h2, h1] at h3
  exact ⟨h3, h1⟩

/-- The computed inverse, times the matrix. -/
theorem inverse_left (hP : P.transpose * P = 1) (hU : frob (U - P) ≤ ε) (hW : W.transpose * W = 1) (hV : frob (V - W) ≤ ε)
    (hA : frob (U * Matrix.diagonal S * V - A) ≤ η * frob A) (hS : ∀ i, S i ≠ 0) (hn : 1 ≤ n) (hε0 : 0 ≤ ε)
    (hu0 : 0 ≤ u) (hug : u ≤ g) (hτ : ε + Real.sqrt n * g ≤ 1 / 100) (hη : η ≤ 1 / 100) {Q : Matrix (Fin n) (Fin n) ℝ} {X : Matrix (Fin n) (Fin r) ℝ}
    (h1 : ∀ i j, |Q i j - V j i / S j| ≤ u * |V j i / S j|) (h2 : ∀ i j, |X i j - ∑ q, Q i q * U j q| ≤ g * ∑ q, |Q i q * U j q|) :
    frob (X * A - 1) ≤ (η + 5 * (ε + Real.sqrt n * g)) * (frob X * frob A) := by
  obtain ⟨x3, dx, m2⟩ := inverse_parts hP hU (mul_eq_one_comm.1 hW) hV hn hε0 hu0 hug hτ h1 h2
  obtain ⟨sq, one⟩ := sqrt_le_cond hS
  have g0 : 0 ≤ g := hu0.trans hug
  have qg0 : 0 ≤ Real.sqrt n * g := mul_nonneg (Real.sqrt_nonneg _) g0
  have hε : ε ≤ 1 / 100 := by linarith
  obtain ⟨s1, s2, s3⟩ := factor_size hP hU (mul_eq_one_comm.1 hW) hV hA hε hη
  have dd : Matrix.diagonal (fun i => (S i)⁻¹) * Matrix.diagonal S = (1 : Matrix (Fin n) (Fin n) ℝ) := by
    rw [Matrix.diagonal_mul_diagonal, ← Matrix.diagonal_one]
    congr 1
    funext i
    exact inv_mul_cancel₀ (hS i)
  generalize Matrix.diagonal (fun i => (S i)⁻¹) = D at *
  generalize Matrix.diagonal S = E at *
  have a0 := frob_nonneg A
  have x0 := frob_nonneg X
  have d0 := frob_nonneg D
  have e0 := frob_nonneg E
  have de : frob D * frob E ≤ 1.05 * frob X * (1.032 * frob A) := mul_le_mul dx s3 e0 (by linarith)
  -- the exact inverse of the computed factors
  have f1 : frob (X * (A - U * E * V)) ≤ η * (frob X * frob A) := by
    refine (frob_mul_le _ _).trans ?_
    rw [frob_sub_comm]
    have := mul_le_mul_of_nonneg_left hA x0
    linarith
  have f2 : frob ((X - V.transpose * D * U.transpose) * (U * E * V)) ≤ 2.3 * (Real.sqrt n * g) * (frob X * frob A) := by
    have t1 : 2.1 * (Real.sqrt n * g) * frob D ≤ 2.1 * (Real.sqrt n * g) * (1.05 * frob X) := mul_le_mul_of_nonneg_left dx (by linarith)
    have t2 := mul_le_mul (x3.trans t1) s1 (frob_nonneg _) (mul_nonneg (by linarith) (by linarith))
    have z := mul_nonneg qg0 (mul_nonneg x0 a0)
    refine (frob_mul_le _ _).trans (t2.trans ?_)
    linarith
  have f3 : frob (V.transpose * D * (U.transpose * (U * (E * V)) - E * V)) ≤ 2.3 * ε * (frob X * frob A) := by
    have t1 := near_gram hP hU hε0 (E * V)
    have t2 := (near_right (mul_eq_one_comm.1 hW) hV E).2
    have t3 : frob (E * V) ≤ 1.01 * frob E := t2.trans (mul_le_mul_of_nonneg_right (by linarith) e0)
    have t4 : frob (U.transpose * (U * (E * V)) - E * V) ≤ 2.01 * ε * (1.01 * frob E) :=
      t1.trans (mul_le_mul (mul_le_mul_of_nonneg_right (by linarith) hε0) t3 (frob_nonneg _) (by linarith))
    have t5 := mul_le_mul m2 t4 (frob_nonneg _) (by linarith)
    have t6 := mul_le_mul_of_nonneg_left de hε0
    have z := mul_nonneg hε0 (mul_nonneg x0 a0)
    refine (frob_mul_le _ _).trans (t5.trans ?_)
    linarith
  have f4 : frob (V.transpose * V - 1) ≤ 2.2 * ε * (frob X * frob A) := by
    have t1 := near_gram hW hV hε0 (1 : Matrix (Fin n) (Fin n) ℝ)
    rw [Matrix.mul_one, one] at t1
    have t2 : (2 + ε) * ε * Real.sqrt n ≤ 2.01 * ε * (frob D * frob E) :=
      mul_le_mul (mul_le_mul_of_nonneg_right (by linarith) hε0) sq (Real.sqrt_nonneg _) (by linarith)
    have t6 := mul_le_mul_of_nonneg_left de hε0
    have z := mul_nonneg hε0 (mul_nonneg x0 a0)
    refine t1.trans (t2.trans ?_)
    linarith
  have e : X * A - 1 = X * (A - U * E * V) + (X - V.transpose * D * U.transpose) * (U * E * V) +
      V.transpose * D * (U.transpose * (U * (E * V)) - E * V) + (V.transpose * V - 1) := by
    have t : V.transpose * (D * (E * V)) = V.transpose * V := by rw [← Matrix.mul_assoc D, dd, Matrix.one_mul]
    simp only [Matrix.mul_sub, Matrix.sub_mul, Matrix.mul_assoc, t]
    abel
  have z1 := mul_nonneg hε0 (mul_nonneg x0 a0)
  have z2 := mul_nonneg qg0 (mul_nonneg x0 a0)
  rw [e]
  refine (frob_add_le _ _).trans ((add_le_add ((frob_add_le _ _).trans (add_le_add ((frob_add_le _ _).trans (add_le_add f1 f2)) f3)) f4).trans ?_)
  linarith

/-- The matrix times the computed inverse. -/
theorem inverse_right {U P : Matrix (Fin n) (Fin n) ℝ} {A V W : Matrix (Fin n) (Fin k) ℝ} (hP : P.transpose * P = 1) (hU : frob (U - P) ≤ ε) (hW : W * W.transpose = 1)
    (hV : frob (V - W) ≤ ε) (hA : frob (U * Matrix.diagonal S * V - A) ≤ η * frob A) (hS : ∀ i, S i ≠ 0) (hn : 1 ≤ n) (hε0 : 0 ≤ ε)
    (hu0 : 0 ≤ u) (hug : u ≤ g) (hτ : ε + Real.sqrt n * g ≤ 1 / 100) (hη : η ≤ 1 / 100) {Q X : Matrix (Fin k) (Fin n) ℝ}
    (h1 : ∀ i j, |Q i j - V j i / S j| ≤ u * |V j i / S j|) (h2 : ∀ i j, |X i j - ∑ q, Q i q * U j q| ≤ g * ∑ q, |Q i q * U j q|) :
    frob (A * X - 1) ≤ (η + 5 * (ε + Real.sqrt n * g)) * (frob X * frob A) := by
  obtain ⟨x3, dx, m2⟩ := inverse_parts hP hU hW hV hn hε0 hu0 hug hτ h1 h2
  obtain ⟨sq, one⟩ := sqrt_le_cond hS
  have g0 : 0 ≤ g := hu0.trans hug
  have qg0 : 0 ≤ Real.sqrt n * g := mul_nonneg (Real.sqrt_nonneg _) g0
  have hε : ε ≤ 1 / 100 := by linarith
  obtain ⟨s1, s2, s3⟩ := factor_size hP hU hW hV hA hε hη
  have hW' : W.transpose.transpose * W.transpose = 1 := by rw [Matrix.transpose_transpose]; exact hW
  have hV' : frob (V.transpose - W.transpose) ≤ ε := by rw [← Matrix.transpose_sub, frob_transpose]; exact hV
  have hP' : P.transpose.transpose * P.transpose = 1 := by rw [Matrix.transpose_transpose]; exact mul_eq_one_comm.1 hP
  have hU' : frob (U.transpose - P.transpose) ≤ ε := by rw [← Matrix.transpose_sub, frob_transpose]; exact hU
  have dd : Matrix.diagonal S * Matrix.diagonal (fun i => (S i)⁻¹) = (1 : Matrix (Fin n) (Fin n) ℝ) := by
    rw [Matrix.diagonal_mul_diagonal, ← Matrix.diagonal_one]
    congr 1
    funext i
    exact mul_inv_cancel₀ (hS i)
  generalize Matrix.diagonal (fun i => (S i)⁻¹) = D at *
  generalize Matrix.diagonal S = E at *
  have a0 := frob_nonneg A
  have x0 := frob_nonneg X
  have d0 := frob_nonneg D
  have e0 := frob_nonneg E
  have de : frob D * frob E ≤ 1.05 * frob X * (1.032 * frob A) := mul_le_mul dx s3 e0 (by linarith)
  have f1 : frob ((A - U * E * V) * X) ≤ η * (frob X * frob A) := by
    refine (frob_mul_le _ _).trans ?_
    rw [frob_sub_comm]
    have := mul_le_mul_of_nonneg_right hA x0
    linarith
  have f2 : frob (U * E * V * (X - V.transpose * D * U.transpose)) ≤ 2.3 * (Real.sqrt n * g) * (frob X * frob A) := by
    have t1 : 2.1 * (Real.sqrt n * g) * frob D ≤ 2.1 * (Real.sqrt n * g) * (1.05 * frob X) := mul_le_mul_of_nonneg_left dx (by linarith)
    have t2 := mul_le_mul s1 (x3.trans t1) (frob_nonneg _) (by linarith)
    have z := mul_nonneg qg0 (mul_nonneg x0 a0)
    refine (frob_mul_le _ _).trans (t2.trans ?_)
    linarith
  have f3 : frob (U * E * (V * (V.transpose * (D * U.transpose)) - D * U.transpose)) ≤ 2.3 * ε * (frob X * frob A) := by
    have t1 := near_gram hW' hV' hε0 (D * U.transpose)
    rw [Matrix.transpose_transpose] at t1
    have t2 := (near_right (by rw [Matrix.transpose_transpose]; exact hP : P.transpose * P.transpose.transpose = 1) hU' D).2
    have t3 : frob (D * U.transpose) ≤ 1.01 * (1.05 * frob X) := by
      have := mul_le_mul (by linarith : 1 + ε ≤ 1.01) dx d0 (by norm_num)
      linarith
    have t4 : frob (V * (V.transpose * (D * U.transpose)) - D * U.transpose) ≤ 2.01 * ε * (1.01 * (1.05 * frob X)) :=
      t1.trans (mul_le_mul (mul_le_mul_of_nonneg_right (by linarith) hε0) t3 (frob_nonneg _) (by linarith))
    have t5 := mul_le_mul s2 t4 (frob_nonneg _) (by linarith)
    have z := mul_nonneg hε0 (mul_nonneg x0 a0)
    refine (frob_mul_le _ _).trans (t5.trans ?_)
    linarith
  have f4 : frob (U * U.transpose - 1) ≤ 2.2 * ε * (frob X * frob A) := by
    have t1 := near_gram hP' hU' hε0 (1 : Matrix (Fin n) (Fin n) ℝ)
    rw [Matrix.transpose_transpose, Matrix.mul_one, one] at t1
    have t2 : (2 + ε) * ε * Real.sqrt n ≤ 2.01 * ε * (frob D * frob E) :=
      mul_le_mul (mul_le_mul_of_nonneg_right (by linarith) hε0) sq (Real.sqrt_nonneg _) (by linarith)
    have t6 := mul_le_mul_of_nonneg_left de hε0
    have z := mul_nonneg hε0 (mul_nonneg x0 a0)
    refine t1.trans (t2.trans ?_)
    linarith
  have e : A * X - 1 = (A - U * E * V) * X + U * E * V * (X - V.transpose * D * U.transpose) +
      U * E * (V * (V.transpose * (D * U.transpose)) - D * U.transpose) + (U * U.transpose - 1) := by
    have t : U * (E * (D * U.transpose)) = U * U.transpose := by rw [← Matrix.mul_assoc E, dd, Matrix.one_mul]
    simp only [Matrix.mul_sub, Matrix.sub_mul, Matrix.mul_assoc, t]
    abel
  have z1 := mul_nonneg hε0 (mul_nonneg x0 a0)
  have z2 := mul_nonneg qg0 (mul_nonneg x0 a0)
  rw [e]
  refine (frob_add_le _ _).trans ((add_le_add ((frob_add_le _ _).trans (add_le_add ((frob_add_le _ _).trans (add_le_add f1 f2)) f3)) f4).trans ?_)
  linarith

end solve

end Mathter.Fl
