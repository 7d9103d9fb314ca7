import Verif.Model.SVDShape
import Verif.Props.SVDSolve

/-!
# C148: the SVD of matrices of every shape

`alg` stands for either algorithm; the theorems assume that it decomposes the matrix it is given, which is C40 and C43.
-/

namespace Mathter.Props
open Mathter
universe u
variable {𝕜 : Type u} [RCLike 𝕜] {r n m : ℕ}

/-- Whatever `alg` returns for `A` is a thin SVD of `A`. -/
def DecomposesThin (alg : ∀ {r n : ℕ}, n + 1 ≤ r + 1 → Matrix (Fin (r + 1)) (Fin (n + 1)) 𝕜 → Option (SVD 𝕜 (r + 1) (n + 1) (n + 1)))
    (A : Matrix (Fin (r + 1)) (Fin (n + 1)) 𝕜) : Prop := ∀ h d, alg h A = some d → IsThinSVD A d

variable {alg : ∀ {r n : ℕ}, n + 1 ≤ r + 1 → Matrix (Fin (r + 1)) (Fin (n + 1)) 𝕜 → Option (SVD 𝕜 (r + 1) (n + 1) (n + 1))}

private theorem thin_flip {k : ℕ} {A : Matrix (Fin r) (Fin n) 𝕜} {d : SVD 𝕜 n k r} (h : IsThinSVD A.transpose d) : IsThinSVD A (svdFlip d) := by
  obtain ⟨w1, w2, w3⟩ := C40_wide A d
  exact ⟨w2 h.right, w1 h.left, w3 h.eq, h.ne⟩

/-- The two cases. -/
private theorem cases_of (A : Matrix (Fin (r + 1)) (Fin (n + 1)) 𝕜) (hA : DecomposesThin alg A) (hT : DecomposesThin alg A.transpose) (d : AnySVD 𝕜 (r + 1) (n + 1))
    (h : decomposeSVD alg A = some d) : (∃ h t, d = .tall h t ∧ IsThinSVD A t) ∨ ∃ h t, d = .wide h t ∧ IsThinSVD A t := by
  unfold decomposeSVD at h
  split at h
  · obtain ⟨t, ht, e⟩ := Option.map_eq_some_iff.1 h
    exact Or.inl ⟨_, t, e.symm, hA _ _ ht⟩
  · obtain ⟨t, ht, e⟩ := Option.map_eq_some_iff.1 h
    exact Or.inr ⟨_, _, e.symm, thin_flip (hT _ _ ht)⟩

omit [RCLike 𝕜] in
/-- C148: the decomposition ends for a matrix if the algorithm does for the matrix or, if that is wide, for its transpose. -/
theorem C148_ends (A : Matrix (Fin (r + 1)) (Fin (n + 1)) 𝕜) : (decomposeSVD alg A).isSome ↔ (∀ h, (alg h A).isSome) ∧ (r < n → ∀ h, (alg h A.transpose).isSome) := by
  unfold decomposeSVD
  split
  · rename_i h
    rw [Option.isSome_map]
    exact ⟨fun x => ⟨fun _ => x, fun h' => by omega⟩, fun x => x.1 h⟩
  · rename_i h
    rw [Option.isSome_map]
    exact ⟨fun x => ⟨fun h' => absurd h' h, fun _ _ => x⟩, fun x => x.2 (by omega) _⟩

/-- C148: the factors multiply to the matrix and `Inverse` is the pseudoinverse, whatever the shape. -/
theorem C148_inverse (A : Matrix (Fin (r + 1)) (Fin (n + 1)) 𝕜) (hA : DecomposesThin alg A) (hT : DecomposesThin alg A.transpose) (d : AnySVD 𝕜 (r + 1) (n + 1))
    (h : decomposeSVD alg A = some d) : ∃ P, d.inverse = some P ∧ IsPseudoinverse A P := by
  rcases cases_of A hA hT d h with ⟨_, t, rfl, ht⟩ | ⟨_, t, rfl, ht⟩
  · exact C43_pseudoinverse A t ht
  · exact C43_pseudoinverse A t ht

/-- C148: a vector and a matrix that precedes vectors, at least as many rows as columns: `Solve` returns the least squares solution. -/
theorem C148_vector_precede_partial (A : Matrix (Fin (r + 1)) (Fin (n + 1)) 𝕜) (hA : DecomposesThin alg A) (hT : DecomposesThin alg A.transpose)
    (d : AnySVD 𝕜 (r + 1) (n + 1)) (h : decomposeSVD alg A = some d) (hrn : n ≤ r) (b : Fin (r + 1) → 𝕜) (b' : Fin (max (r + 1) (n + 1)) → 𝕜)
    (hb : ∀ i : Fin (r + 1), b' (Fin.castLE (le_max_left _ _) i) = b i) :
    ∃ x, d.solveVecPrecede b' = some (some x) ∧ (∀ y, length (A.mulVec x - b) ≤ length (A.mulVec y - b)) ∧ ∀ z, A.mulVec z = b → x = z := by
  rcases cases_of A hA hT d h with ⟨hh, t, rfl, ht⟩ | ⟨hh, _⟩
  swap
  · omega
  obtain ⟨X, e, h1, h2⟩ := C43_solve_precede_partial A t ht (Matrix.of fun i (_ : Fin 1) => b i)
  refine ⟨fun i => X i 0, ?_, h1 0, fun z hz => ?_⟩
  · unfold AnySVD.solveVecPrecede
    rw [dif_pos (max_eq_left hh)]
    have : (fun i => b' (Fin.cast (max_eq_left hh).symm i)) = b := funext fun i => hb i
    have e2 : (Matrix.of fun i (_ : Fin 1) => b' (Fin.cast (max_eq_left hh).symm i)) = Matrix.of fun i (_ : Fin 1) => b i := by rw [← this]
    rw [e2]
    show some (Option.map _ (svdSolvePrecede t _)) = _
    rw [e]; rfl
  · have := h2 (Matrix.of fun i (_ : Fin 1) => z i) (by
      ext i j
      rw [Matrix.mul_apply]
      exact congrFun hz i)
    rw [this]; rfl

/-- C148: a vector and a matrix that follows vectors, at least as many columns as rows: `Solve` returns the least squares solution of `x * A = b`. -/
theorem C148_vector_follow_partial (A : Matrix (Fin (r + 1)) (Fin (n + 1)) 𝕜) (hA : DecomposesThin alg A) (hT : DecomposesThin alg A.transpose)
    (d : AnySVD 𝕜 (r + 1) (n + 1)) (h : decomposeSVD alg A = some d) (hrn : r ≤ n) (b : Fin (n + 1) → 𝕜) (b' : Fin (max (r + 1) (n + 1)) → 𝕜)
    (hb : ∀ i : Fin (n + 1), b' (Fin.castLE (le_max_right _ _) i) = b i) :
    ∃ x, d.solveVecFollow b' = some (some x) ∧ (∀ y, length (Matrix.vecMul x A - b) ≤ length (Matrix.vecMul y A - b)) ∧ ∀ z, Matrix.vecMul z A = b → x = z := by
  have key : ∃ X, d.solveFollow (Matrix.of fun (_ : Fin 1) j => b j) = some X ∧
      (∀ i y, length (Matrix.vecMul (X i) A - b) ≤ length (Matrix.vecMul y A - b)) ∧ ∀ z, z * A = (Matrix.of fun (_ : Fin 1) j => b j) → X = z := by
    rcases cases_of A hA hT d h with ⟨hh, t, rfl, ht⟩ | ⟨hh, t, rfl, ht⟩
    · obtain rfl : r = n := by omega
      exact C43_solve_follow_partial A t ht _
    · exact C43_solve_follow_partial A t ht _
  obtain ⟨X, e, h1, h2⟩ := key
  have hm : max (r + 1) (n + 1) = n + 1 := max_eq_right (by omega)
  refine ⟨X 0, ?_, h1 0, fun z hz => ?_⟩
  · unfold AnySVD.solveVecFollow
    rw [dif_pos hm]
    have : (fun i => b' (Fin.cast hm.symm i)) = b := funext fun i => hb i
    have e2 : (Matrix.of fun (_ : Fin 1) j => b' (Fin.cast hm.symm j)) = Matrix.of fun (_ : Fin 1) j => b j := by rw [← this]
    rw [e2, e]; rfl
  · have := h2 (Matrix.of fun (_ : Fin 1) j => z j) (by
      ext i j
      rw [Matrix.mul_apply]
      exact congrFun hz j)
    rw [this]; rfl

/-- C148 is violated for vectors and matrices of the other shapes, of either order: the overload is declared, but using it does not compile. -/
theorem C148_vector_violated (d : AnySVD 𝕜 r n) (b : Fin (max r n) → 𝕜) :
    (r < n → d.solveVecPrecede b = none) ∧ (n < r → d.solveVecFollow b = none) := by
  refine ⟨fun h => ?_, fun h => ?_⟩
  · unfold AnySVD.solveVecPrecede
    rw [dif_neg (by omega)]
  · unfold AnySVD.solveVecFollow
    rw [dif_neg (by omega)]

/-- C148 is violated for several right-hand sides and these shapes: an index is out of range. -/
theorem C148_many_violated (d : AnySVD 𝕜 r n) : (r < n → ∀ b : Matrix (Fin r) (Fin m) 𝕜, d.solvePrecede b = none) ∧
    (n < r → ∀ b : Matrix (Fin m) (Fin n) 𝕜, d.solveFollow b = none) := by
  refine ⟨fun h b => ?_, fun h b => ?_⟩
  · cases d with
    | tall h' d => omega
    | wide h' d => exact C43_solve_precede_violated d h b
  · cases d with
    | tall h' d => exact C43_solve_follow_violated d h b
    | wide h' d => omega

/-- C148: the one-sided algorithm decomposes every real matrix with independent columns that it ends for with a quiet sweep, so the above applies to it. -/
theorem C148_one_sided (lo hi eps big big' : ℝ) (hlo : 0 < lo) (hh : lo ≤ hi) (heps : 0 < eps) (hbig : big' < big)
    (negS : ℕ → Fin (n + 1) → Fin (n + 1) → Bool) (neg : Fin (n + 1) → Bool)
    (σ : Equiv.Perm (Fin (n + 1))) (hrn : n + 1 ≤ r + 1) (fuel : ℕ) (A : Matrix (Fin (r + 1)) (Fin (n + 1)) ℝ) (d : SVD ℝ (r + 1) (n + 1) (n + 1))
    (h : svdOneSided lo hi eps big big' negS neg σ hrn fuel A = some d)
    (hσ : ∀ x, jacobiLoop (oneSweep negS) fuel 0 big big' (oneInit A (matScaleElements A)) = some x → SortsColumns x.1.X σ)
    (hend : (jacobiLoop (oneSweep negS) fuel 0 big big' (oneInit A (matScaleElements A))).map Prod.snd = some 0)
    (hA : ∀ y, A.mulVec y = 0 → y = 0) : IsThinSVD A d := by
  obtain ⟨v1, v2, hS⟩ := C40_one_sided lo hi eps big big' negS neg σ hrn fuel A d h
  obtain ⟨u1, u2⟩ := C40_one_sided_real_partial lo hi eps big big' hlo hh heps hbig negS neg σ hrn fuel A d h hσ hend
  refine ⟨u1, v2, u2, fun i hz => ?_⟩
  have h1 := hS i
  rw [hz, abs_zero] at h1
  have h2 := hA _ ((length_eq_zero _).1 h1.symm)
  have h3 := congrFun (congrFun v2 i) i
  rw [Matrix.mul_apply, Matrix.one_apply_eq, Finset.sum_eq_zero] at h3
  · exact zero_ne_one h3
  · intro j _
    rw [Matrix.conjTranspose_apply, congrFun h2 j]; simp

/-- A wide matrix with independent rows, decomposed by the one-sided algorithm: the hypotheses of `C148_one_sided` hold for its transpose. -/
example (negS neg) : ∃ σ d, svdOneSided 1 2 (1 / 4) 16 15 negS neg σ (by norm_num) 4 (!![1, 3, 5; 2, 4, 6] : Matrix (Fin 2) (Fin 3) ℝ).transpose = some d ∧
    IsThinSVD (!![1, 3, 5; 2, 4, 6] : Matrix (Fin 2) (Fin 3) ℝ) (svdFlip d) := by
  set B := (!![1, 3, 5; 2, 4, 6] : Matrix (Fin 2) (Fin 3) ℝ).transpose with hB
  have hB0 : B ≠ 0 := by intro h; simpa [hB] using congrFun (congrFun h 0) 0
  obtain ⟨_, hend⟩ := C40_two_columns (r := 2) 1 2 (1 / 4) 16 15 (by norm_num) (by norm_num) negS neg 1 (by norm_num) 0 _ hB0
  have hend' := hend
  rw [Option.map_eq_some_iff] at hend
  obtain ⟨x, hx, hx0⟩ := hend
  obtain ⟨σ, hσ⟩ := C42_sort_exists x.1.X
  obtain ⟨⟨d, hd⟩, _⟩ := C40_two_columns (r := 2) 1 2 (1 / 4) 16 15 (by norm_num) (by norm_num) negS neg σ (by norm_num) 0 _ hB0
  refine ⟨σ, d, hd, thin_flip ?_⟩
  refine C148_one_sided 1 2 (1 / 4) 16 15 (by norm_num) (by norm_num) (by norm_num) (by norm_num) negS neg σ (by norm_num) _ B d hd (fun y hy => ?_) hend' (fun y hy => ?_)
  · rw [hx] at hy
    rw [← Option.some.inj hy]; exact hσ
  · have e0 := congrFun hy 0
    have e1 := congrFun hy 1
    simp [hB, Matrix.mulVec, dotProduct, Fin.sum_univ_two] at e0 e1
    funext i
    fin_cases i <;> simp <;> linarith

end Mathter.Props
