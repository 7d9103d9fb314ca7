import Verif.Lemmas.SVD

/-!
# The two-sided Jacobi SVD (C40, C42)

`A` ranges over all real or complex matrices with at least as many rows as columns; the parameters that exact arithmetic leaves open (the
tolerance, the signs of zeros, the largest numbers, the number of sweeps) are universally quantified.
-/

namespace Mathter.Props
open Mathter
universe u
variable {𝕜 : Type u} [RCLike 𝕜] {r n k : ℕ}

theorem twoInit_inv (hrn : n + 1 ≤ r) (A : Matrix (Fin r) (Fin (n + 1)) 𝕜) (sc : ℝ) : TwoInv (twoInit A sc).X (n + 1) (twoInit A sc) := by
  refine ⟨?_, ?_, ?_, ?_, ?_, fun i => Or.inl rfl⟩
  · simp [twoInit]
  · simp [twoInit]
  · simp [twoInit]
  · intro i j hj
    simp only [twoInit, Matrix.of_apply]
    rw [dif_neg (by omega)]
  · intro i j _
    simp only [twoInit, Matrix.one_apply]

theorem twoInit_X (hrn : n + 1 ≤ r) (A : Matrix (Fin r) (Fin (n + 1)) 𝕜) (sc : ℝ) (h : sc ≠ 0) (i : Fin r) (j : Fin (n + 1)) :
    A i j = (sc : 𝕜) * (twoInit A sc).X i (Fin.castLE hrn j) := by
  have hK : ((sc : ℝ) : 𝕜) ≠ 0 := by exact_mod_cast h
  simp only [twoInit, Matrix.of_apply]
  rw [dif_pos (show (Fin.castLE hrn j).val < n + 1 from j.isLt)]
  simp only [Fin.val_castLE, Fin.eta]
  field_simp

private theorem norm_sq_le {x : 𝕜} {t : ℝ} (h : scaleElt x ≤ t) : ‖x‖ ^ 2 ≤ 2 * t ^ 2 := by
  rw [norm_sq_re_im]
  have h1 : |RCLike.re x| ≤ t := (le_max_left _ _).trans h
  have h2 : |RCLike.im x| ≤ t := (le_max_right _ _).trans h
  have h3 := abs_nonneg (RCLike.re x)
  rw [← sq_abs (RCLike.re x), ← sq_abs (RCLike.im x)]
  nlinarith [abs_nonneg (RCLike.im x)]

/-- What `svdTwoSided` returns in terms of the final state. -/
theorem twoSided_state {tol big big' : ℝ} (htol : 0 ≤ tol) {zs : ℕ → Fin r → Fin r → ZeroSigns 𝕜} {hrn : n + 1 ≤ r} {fuel : ℕ}
    {A : Matrix (Fin r) (Fin (n + 1)) 𝕜} {d : SVD 𝕜 r (n + 1) (n + 1)} (h : svdTwoSided tol big big' zs hrn fuel A = some d) :
    matScaleElements A ≠ 0 ∧ ∃ x, jacobiLoop (twoSweep tol zs) fuel 0 big big' (twoInit A (matScaleElements A)) = some x ∧
      TwoInv (twoInit A (matScaleElements A)).X (n + 1) x.1 ∧
      (¬ big' < big ∨ ∃ t' s', twoSweep tol zs t' s' = x) ∧
      d = ⟨Matrix.of fun i j => x.1.U i (Fin.castLE hrn j), fun i => RCLike.re (x.1.X (Fin.castLE hrn i) (Fin.castLE hrn i)) * matScaleElements A,
        Matrix.of fun i j => x.1.V (Fin.castLE hrn i) (Fin.castLE hrn j)⟩ := by
  unfold svdTwoSided at h
  simp only at h
  by_cases h0 : matScaleElements A = 0
  · rw [if_pos h0] at h; cases h
  · rw [if_neg h0] at h
    refine ⟨h0, ?_⟩
    rw [Option.map_eq_some_iff] at h
    obtain ⟨x, hx, hd⟩ := h
    have := jacobiLoop_inv (sweep := twoSweep tol zs) (fun s => TwoInv (twoInit A (matScaleElements A)).X (n + 1) s)
      (fun t s hs => hs.sweep tol htol zs t) fuel 0 big big' _ (twoInit_inv hrn A _) x hx
    refine ⟨x, hx, this.1, ?_, hd.symm⟩
    rcases this.2 with h2 | ⟨t', s', _, h2⟩
    · exact Or.inl h2.2
    · exact Or.inr ⟨t', s', h2⟩

/-- C40: whatever the number of sweeps, the factors that `DecomposeSVD` (two-sided) returns are unitary, and `S` consists of the real parts of
the diagonal of `Uᴴ A Vᴴ`. -/
theorem C40_two_sided (tol big big' : ℝ) (htol : 0 ≤ tol) (zs : ℕ → Fin r → Fin r → ZeroSigns 𝕜) (hrn : n + 1 ≤ r) (fuel : ℕ)
    (A : Matrix (Fin r) (Fin (n + 1)) 𝕜) (d : SVD 𝕜 r (n + 1) (n + 1)) (h : svdTwoSided tol big big' zs hrn fuel A = some d) :
    d.U.conjTranspose * d.U = 1 ∧ d.V.conjTranspose * d.V = 1 ∧ d.V * d.V.conjTranspose = 1 ∧
    ∀ i, d.S i = RCLike.re ((d.U.conjTranspose * A * d.V.conjTranspose) i i) := by
  obtain ⟨h0, x, _, hI, _, hd⟩ := twoSided_state htol h
  generalize matScaleElements A = sc at *
  have hX := twoInit_X hrn A sc h0
  have hcols := (twoInit_inv hrn A sc).cols
  set B := (twoInit A sc).X with hB
  clear_value B
  generalize x.1 = s at *
  obtain ⟨h1, h2, h3, h4, h5, h6⟩ := hI
  have h3' : s.V * s.V.conjTranspose = 1 := mul_eq_one_comm.1 h3
  have hV : d.V.conjTranspose * d.V = 1 := by
    rw [hd]
    ext i j
    have := congrFun (congrFun h3 (Fin.castLE hrn i)) (Fin.castLE hrn j)
    rw [Matrix.mul_apply, sum_castLE hrn] at this
    · rw [Matrix.mul_apply]
      simp only [Matrix.conjTranspose_apply, Matrix.of_apply] at this ⊢
      rw [this, Matrix.one_apply, Matrix.one_apply]
      simp [Fin.ext_iff]
    · intro k hk
      rw [h5 k (Fin.castLE hrn j) (Or.inl hk), if_neg (by rintro rfl; simp at hk; omega), mul_zero]
  refine ⟨?_, hV, mul_eq_one_comm.1 hV, ?_⟩
  · rw [hd]
    ext i j
    have := congrFun (congrFun h2 (Fin.castLE hrn i)) (Fin.castLE hrn j)
    rw [Matrix.mul_apply] at this ⊢
    simp only [Matrix.conjTranspose_apply, Matrix.of_apply] at this ⊢
    rw [this, Matrix.one_apply, Matrix.one_apply]
    simp [Fin.ext_iff]
  · intro i
    have hXeq : s.U.conjTranspose * B * s.V.conjTranspose = s.X := by
      rw [← h1]
      have : s.U.conjTranspose * (s.U * s.X * s.V) * s.V.conjTranspose = (s.U.conjTranspose * s.U) * s.X * (s.V * s.V.conjTranspose) := by
        simp only [Matrix.mul_assoc]
      rw [this, h2, h3', Matrix.one_mul, Matrix.mul_one]
    have hlink : (d.U.conjTranspose * A * d.V.conjTranspose) i i = (sc : 𝕜) * s.X (Fin.castLE hrn i) (Fin.castLE hrn i) := by
      rw [← hXeq, Matrix.mul_apply, Matrix.mul_apply, sum_castLE hrn]
      · rw [Finset.mul_sum]
        apply Finset.sum_congr rfl
        intro j _
        rw [Matrix.mul_apply, Matrix.mul_apply, Finset.sum_mul, Finset.sum_mul, Finset.mul_sum]
        apply Finset.sum_congr rfl
        intro a _
        rw [hd, hX a j]
        simp only [Matrix.conjTranspose_apply, Matrix.of_apply]
        ring
      · intro j hj
        rw [Matrix.mul_apply, Finset.sum_eq_zero, zero_mul]
        intro a _
        rw [hcols a j hj, mul_zero]
    rw [hlink, hd, RCLike.re_ofReal_mul, mul_comm]

/-- C40: if the algorithm ended because the last sweep found every pair within the tolerance (its last `maxError` is zero), and the diagonal of
`A` is real, then `U * S * V` reproduces `A` up to the dropped residue: the sum of the squared errors is at most that many times the squared tolerance.
Missing: runs that end otherwise (`C40_early_exit_violated`) and complex diagonals (`C40_complex_violated`). -/
theorem C40_residue_partial (tol big big' : ℝ) (htol : 0 ≤ tol) (hbig : big' < big) (zs : ℕ → Fin r → Fin r → ZeroSigns 𝕜) (hrn : n + 1 ≤ r) (fuel : ℕ)
    (A : Matrix (Fin r) (Fin (n + 1)) 𝕜) (d : SVD 𝕜 r (n + 1) (n + 1)) (h : svdTwoSided tol big big' zs hrn fuel A = some d)
    (hend : (jacobiLoop (twoSweep tol zs) fuel 0 big big' (twoInit A (matScaleElements A))).map Prod.snd = some 0)
    (hre : ∀ i : Fin (n + 1), RCLike.im (A (Fin.castLE hrn i) i) = 0) :
    ∑ i, ∑ j, ‖(d.U * Matrix.diagonal (fun i => ((d.S i : ℝ) : 𝕜)) * d.V) i j - A i j‖ ^ 2 ≤
      r * ((n + 1 : ℕ) * (2 * (tol * matScaleElements A) ^ 2)) := by
  have hV := (C40_two_sided tol big big' htol zs hrn fuel A d h).2.2.1
  obtain ⟨h0, x, hx, hI, hlast, hd⟩ := twoSided_state htol h
  rw [hx] at hend
  simp only [Option.map_some, Option.some.injEq] at hend
  have hsmall : ∀ i j : Fin r, i ≠ j → scaleElt (x.1.X i j) ≤ tol := by
    rcases hlast with h | ⟨t', s', h⟩
    · exact absurd hbig h
    · exact (twoSweep_quiet tol htol zs t' s' x.1 (by rw [h, ← hend])).2
  have hsc0 := (le_matScaleElements A).1
  clear hx hlast
  generalize matScaleElements A = sc at *
  have hX := twoInit_X hrn A sc h0
  set B := (twoInit A sc).X with hB
  clear_value B
  generalize x.1 = s at *
  obtain ⟨h1, h2, h3, h4, h5, h6⟩ := hI
  have hscK : ((sc : ℝ) : 𝕜) ≠ 0 := by exact_mod_cast h0
  -- the residue
  let E : Matrix (Fin r) (Fin (n + 1)) 𝕜 := Matrix.of fun k l =>
    (sc : 𝕜) * ((if k = Fin.castLE hrn l then ((RCLike.re (s.X k k) : ℝ) : 𝕜) else 0) - s.X k (Fin.castLE hrn l))
  have hE : d.U * Matrix.diagonal (fun i => ((d.S i : ℝ) : 𝕜)) * d.V - A = s.U * E * d.V := by
    ext i j
    rw [Matrix.sub_apply, hX i j, ← h1, Matrix.mul_apply, Matrix.mul_apply, sum_castLE hrn, Finset.mul_sum, Matrix.mul_apply, ← Finset.sum_sub_distrib]
    · apply Finset.sum_congr rfl
      intro l _
      rw [Matrix.mul_diagonal, Matrix.mul_apply, Matrix.mul_apply, hd]
      simp only [Matrix.of_apply, E]
      have e1 : ∑ a, s.U i a * ((sc : 𝕜) * ((if a = Fin.castLE hrn l then ((RCLike.re (s.X a a) : ℝ) : 𝕜) else 0) - s.X a (Fin.castLE hrn l)))
          = s.U i (Fin.castLE hrn l) * ((sc : 𝕜) * ((RCLike.re (s.X (Fin.castLE hrn l) (Fin.castLE hrn l)) : ℝ) : 𝕜))
            - (sc : 𝕜) * ∑ a, s.U i a * s.X a (Fin.castLE hrn l) := by
        rw [Finset.mul_sum, ← Finset.sum_ite_eq' Finset.univ (Fin.castLE hrn l)
          (fun a => s.U i a * ((sc : 𝕜) * ((RCLike.re (s.X a a) : ℝ) : 𝕜))) |>.trans (if_pos (Finset.mem_univ _)), ← Finset.sum_sub_distrib]
        apply Finset.sum_congr rfl
        intro a _
        split
        · ring
        · ring
      rw [e1]
      push_cast
      ring
    · intro l hl
      rw [Matrix.mul_apply, Finset.sum_eq_zero, zero_mul]
      intro a _
      rw [h4 a l hl, mul_zero]
  have hF : ∑ i, ∑ j, ‖(d.U * Matrix.diagonal (fun i => ((d.S i : ℝ) : 𝕜)) * d.V) i j - A i j‖ ^ 2 = ∑ i, ∑ j, ‖E i j‖ ^ 2 := by
    rw [← frob_left h2 E, ← frob_right hV (s.U * E), ← hE]
    rfl
  rw [hF]
  have hbound : ∀ k l, ‖E k l‖ ^ 2 ≤ 2 * (tol * sc) ^ 2 := by
    intro k l
    simp only [E, Matrix.of_apply]
    by_cases hkl : k = Fin.castLE hrn l
    · rw [if_pos hkl, ← hkl]
      have : ((RCLike.re (s.X k k) : ℝ) : 𝕜) = s.X k k := by
        rcases h6 k with hk | ⟨a, _, ha⟩
        · have hB0 : RCLike.im (B k k) = 0 := by
            have hA := hre l
            rw [hX, ← hkl, RCLike.im_ofReal_mul] at hA
            exact (mul_eq_zero.1 hA).resolve_left h0
          rw [hk]
          apply RCLike.ext
          · simp
          · simp [hB0]
        · rw [ha]; simp
      rw [this, sub_self, mul_zero, norm_zero, zero_pow two_ne_zero]
      positivity
    · rw [if_neg hkl, zero_sub, norm_mul, norm_neg, RCLike.norm_ofReal, mul_pow, sq_abs]
      have := norm_sq_le (hsmall k (Fin.castLE hrn l) hkl)
      have h7 : 0 ≤ sc ^ 2 := sq_nonneg _
      nlinarith
  calc ∑ i, ∑ j, ‖E i j‖ ^ 2 ≤ ∑ _i : Fin r, ∑ _j : Fin (n + 1), 2 * (tol * sc) ^ 2 :=
        Finset.sum_le_sum fun i _ => Finset.sum_le_sum fun j _ => hbound i j
    _ = r * ((n + 1 : ℕ) * (2 * (tol * sc) ^ 2)) := by
        simp only [Finset.sum_const, Finset.card_univ, Fintype.card_fin, nsmul_eq_mul]

/-- C42, as far as it holds: each value of `S` is nonnegative, or it is the real part of a diagonal element of `A` that no rotation has touched.
Missing: nonnegativity in the latter case, see `C42_violated`. -/
theorem C42_two_sided_partial (tol big big' : ℝ) (htol : 0 ≤ tol) (zs : ℕ → Fin r → Fin r → ZeroSigns 𝕜) (hrn : n + 1 ≤ r) (fuel : ℕ)
    (A : Matrix (Fin r) (Fin (n + 1)) 𝕜) (d : SVD 𝕜 r (n + 1) (n + 1)) (h : svdTwoSided tol big big' zs hrn fuel A = some d) (i : Fin (n + 1)) :
    0 ≤ d.S i ∨ d.S i = RCLike.re (A (Fin.castLE hrn i) i) := by
  obtain ⟨h0, x, _, hI, _, hd⟩ := twoSided_state htol h
  have hsc := (le_matScaleElements A).1
  rw [hd]
  simp only
  rcases hI.diag (Fin.castLE hrn i) with hk | ⟨a, ha, hk⟩
  · right
    rw [hk, twoInit_X hrn A _ h0 (Fin.castLE hrn i) i, RCLike.re_ofReal_mul, mul_comm]
  · left
    rw [hk, RCLike.ofReal_re]
    exact mul_nonneg ha hsc

/-- C42: if the diagonal of `A` has no negative real part, `S` is nonnegative. -/
theorem C42_two_sided_nonneg (tol big big' : ℝ) (htol : 0 ≤ tol) (zs : ℕ → Fin r → Fin r → ZeroSigns 𝕜) (hrn : n + 1 ≤ r) (fuel : ℕ)
    (A : Matrix (Fin r) (Fin (n + 1)) 𝕜) (d : SVD 𝕜 r (n + 1) (n + 1)) (h : svdTwoSided tol big big' zs hrn fuel A = some d)
    (hA : ∀ i, 0 ≤ RCLike.re (A (Fin.castLE hrn i) i)) (i : Fin (n + 1)) : 0 ≤ d.S i := by
  rcases C42_two_sided_partial tol big big' htol zs hrn fuel A d h i with h1 | h1
  · exact h1
  · rw [h1]; exact hA i

/-- The decomposition of a matrix that is diagonal already: nothing is rotated, `S` is the real part of the diagonal whatever its sign. -/
theorem C42_diagonal (tol big big' : ℝ) (htol : 0 ≤ tol) (h0 : 0 < big') (h1 : big' < big) (zs : ℕ → Fin r → Fin r → ZeroSigns 𝕜) (hrn : n + 1 ≤ r)
    (fuel : ℕ) (A : Matrix (Fin r) (Fin (n + 1)) 𝕜) (hA : A ≠ 0) (hdiag : ∀ i j, i ≠ Fin.castLE hrn j → A i j = 0) :
    svdTwoSided tol big big' zs hrn (fuel + 3) A = some
      ⟨Matrix.of fun i j => if i = Fin.castLE hrn j then 1 else 0, fun i => RCLike.re (A (Fin.castLE hrn i) i), 1⟩ := by
  have hsc : matScaleElements A ≠ 0 := fun h => hA ((matScaleElements_eq_zero A).1 h)
  unfold svdTwoSided
  simp only [if_neg hsc]
  have hX : ∀ i j : Fin r, i ≠ j → (twoInit A (matScaleElements A)).X i j = 0 := by
    intro i j hij
    simp only [twoInit, Matrix.of_apply]
    split
    · rename_i hj
      rw [hdiag i ⟨j, hj⟩ (by intro h; apply hij; rw [h]; rfl), zero_div]
    · rfl
  have hsweep : ∀ t, twoSweep tol zs t (twoInit A (matScaleElements A)) = (twoInit A (matScaleElements A), 0) := by
    intro t
    unfold twoSweep
    refine pairs_inv (fun x : TwoState 𝕜 r × ℝ => x = (twoInit A (matScaleElements A), 0)) rfl fun p q x hpq hx => ?_
    rw [hx]
    unfold twoStep
    simp only
    rw [hX p q (ne_of_lt hpq), hX q p (ne_of_gt hpq), (scaleElt_eq_zero (0 : 𝕜)).2 rfl, max_self, if_neg (not_lt.2 htol)]
  rw [jacobiLoop_fixed _ _ hsweep big big' h0 h1]
  simp only [Option.map_some, Option.some.injEq, SVD.mk.injEq]
  refine ⟨?_, ?_, ?_⟩
  · ext i j; simp [twoInit, Matrix.one_apply]
  · funext i
    rw [twoInit_X hrn A _ hsc (Fin.castLE hrn i) i, RCLike.re_ofReal_mul, mul_comm]
  · ext i j; simp [twoInit, Matrix.one_apply, Fin.ext_iff]

/-- C42 is violated: the two-sided decomposition of the real matrix `diag(-1, 1)` has the singular values -1 and 1, whatever the tolerance. -/
theorem C42_violated (tol big big' : ℝ) (htol : 0 ≤ tol) (h0 : 0 < big') (h1 : big' < big) (zs : ℕ → Fin 2 → Fin 2 → ZeroSigns ℝ) (fuel : ℕ) :
    ∃ d : SVD ℝ 2 2 2, svdTwoSided tol big big' zs le_rfl (fuel + 3) !![-1, 0; 0, 1] = some d ∧ d.S 0 = -1 := by
  refine ⟨_, C42_diagonal tol big big' htol h0 h1 zs le_rfl fuel !![-1, 0; 0, 1] ?_ ?_, by simp⟩
  · intro h; simpa using congrFun (congrFun h 0) 0
  · intro i j hij
    fin_cases i <;> fin_cases j <;> simp_all

/-- C42 is violated: neither algorithm has a result for the zero matrix, of which the elements are divided by the largest element. -/
theorem C42_zero_violated (tol big big' : ℝ) (zs : ℕ → Fin r → Fin r → ZeroSigns 𝕜) (hrn : n + 1 ≤ r) (fuel : ℕ) :
    svdTwoSided tol big big' zs hrn fuel (0 : Matrix (Fin r) (Fin (n + 1)) 𝕜) = none := by
  unfold svdTwoSided
  simp only [if_pos ((matScaleElements_eq_zero (0 : Matrix (Fin r) (Fin (n + 1)) 𝕜)).2 rfl)]

/-- C42: on every other matrix no division by zero occurs (the only other way to have no result is not to have ended yet). -/
theorem C42_defined (tol big big' : ℝ) (zs : ℕ → Fin r → Fin r → ZeroSigns 𝕜) (hrn : n + 1 ≤ r) (fuel : ℕ) (A : Matrix (Fin r) (Fin (n + 1)) 𝕜)
    (hA : A ≠ 0) (x) (hx : jacobiLoop (twoSweep tol zs) fuel 0 big big' (twoInit A (matScaleElements A)) = some x) :
    ∃ d, svdTwoSided tol big big' zs hrn fuel A = some d := by
  unfold svdTwoSided
  simp only [if_neg fun h => hA ((matScaleElements_eq_zero A).1 h), hx, Option.map_some]
  exact ⟨_, rfl⟩

/-- C40 is violated for complex matrices: the decomposition of `diag(i, 1)` drops the imaginary part, so that `U * S * V = diag(0, 1)`. -/
theorem C40_complex_violated (tol big big' : ℝ) (htol : 0 ≤ tol) (h0 : 0 < big') (h1 : big' < big) (zs : ℕ → Fin 2 → Fin 2 → ZeroSigns ℂ) (fuel : ℕ) :
    ∃ d : SVD ℂ 2 2 2, svdTwoSided tol big big' zs le_rfl (fuel + 3) !![Complex.I, 0; 0, 1] = some d ∧
      d.U * Matrix.diagonal (fun i => ((d.S i : ℝ) : ℂ)) * d.V = !![0, 0; 0, 1] := by
  refine ⟨_, C42_diagonal tol big big' htol h0 h1 zs le_rfl fuel !![Complex.I, 0; 0, 1] ?_ ?_, ?_⟩
  · intro h; simpa using congrFun (congrFun h 0) 0
  · intro i j hij
    fin_cases i <;> fin_cases j <;> simp_all
  · ext i j
    rw [Matrix.mul_one, Matrix.mul_diagonal]
    fin_cases i <;> fin_cases j <;> simp

/-- C40: the decomposition of a wide matrix is the transposed decomposition of the transpose. -/
theorem C40_wide (A : Matrix (Fin r) (Fin n) 𝕜) (d : SVD 𝕜 n k r) :
    (d.U.conjTranspose * d.U = 1 → (svdFlip d).V * (svdFlip d).V.conjTranspose = 1) ∧
    (d.V * d.V.conjTranspose = 1 → (svdFlip d).U.conjTranspose * (svdFlip d).U = 1) ∧
    (d.U * Matrix.diagonal (fun i => ((d.S i : ℝ) : 𝕜)) * d.V = A.transpose →
      (svdFlip d).U * Matrix.diagonal (fun i => (((svdFlip d).S i : ℝ) : 𝕜)) * (svdFlip d).V = A) := by
  refine ⟨fun h => ?_, fun h => ?_, fun h => ?_⟩
  · have := congrArg Matrix.transpose h
    rw [Matrix.transpose_mul, Matrix.transpose_one] at this
    exact this
  · have := congrArg Matrix.transpose h
    rw [Matrix.transpose_mul, Matrix.transpose_one] at this
    exact this
  · have := congrArg Matrix.transpose h
    rw [Matrix.transpose_mul, Matrix.transpose_mul, Matrix.diagonal_transpose, Matrix.transpose_transpose, ← Matrix.mul_assoc] at this
    exact this

/-- C40: with two rows the algorithm always ends after at most three sweeps, the last of them quiet, for every matrix but zero. -/
theorem C40_two_rows (tol big big' : ℝ) (htol : 0 ≤ tol) (h0 : 1 < big') (h1 : big' < big) (zs : ℕ → Fin 2 → Fin 2 → ZeroSigns 𝕜) (hrn : n + 1 ≤ 2)
    (fuel : ℕ) (A : Matrix (Fin 2) (Fin (n + 1)) 𝕜) (hA : A ≠ 0) :
    (∃ d, svdTwoSided tol big big' zs hrn (fuel + 4) A = some d) ∧
    (jacobiLoop (twoSweep tol zs) (fuel + 4) 0 big big' (twoInit A (matScaleElements A))).map Prod.snd = some 0 := by
  have hsc : matScaleElements A ≠ 0 := fun h => hA ((matScaleElements_eq_zero A).1 h)
  have hscp : 0 < matScaleElements A := lt_of_le_of_ne (le_matScaleElements A).1 (Ne.symm hsc)
  -- a sweep is one step
  have hsweep : ∀ t s, twoSweep tol zs t s = twoStep tol (zs t 0 1) 0 1 (s, 0) := by
    intro t s
    unfold twoSweep
    rw [forUp_step (by norm_num : 0 < 2), forUp_step (by norm_num : 0 + 1 < 2), forUp_ge (by norm_num)]
    simp only
    rw [forUp_ge (n := 2) (lo := _) (by norm_num), forUp_step (by norm_num : 0 + 1 < 2), forUp_ge (n := 2) (by norm_num)]
    rfl
  have hle : ∀ i j, scaleElt ((twoInit A (matScaleElements A)).X i j) ≤ 1 := by
    intro i j
    simp only [twoInit, Matrix.of_apply]
    split
    · rename_i hj
      have h2 := scaleElt_le_matScale A i ⟨j, hj⟩
      have h3 : scaleElt (A i ⟨j, hj⟩ / ((matScaleElements A : ℝ) : 𝕜)) = scaleElt (A i ⟨j, hj⟩) / matScaleElements A := by
        have e1 : A i ⟨j, hj⟩ / ((matScaleElements A : ℝ) : 𝕜) = (((matScaleElements A)⁻¹ : ℝ) : 𝕜) * A i ⟨j, hj⟩ := by
          push_cast; rw [div_eq_inv_mul]
        rw [e1, scaleElt, scaleElt, RCLike.re_ofReal_mul, RCLike.im_ofReal_mul, abs_mul, abs_mul, abs_of_pos (inv_pos.2 hscp),
          ← mul_max_of_nonneg _ _ (inv_pos.2 hscp).le, div_eq_inv_mul]
      rw [h3, div_le_one hscp]; exact h2
    · rw [(scaleElt_eq_zero (0 : 𝕜)).2 rfl]; norm_num
  have hloop : ∃ x, jacobiLoop (twoSweep tol zs) (fuel + 4) 0 big big' (twoInit A (matScaleElements A)) = some (x, 0) := by
    generalize twoInit A (matScaleElements A) = s at *
    by_cases hq : max (scaleElt (s.X 0 1)) (scaleElt (s.X 1 0)) > tol
    · have hs0 : twoSweep tol zs 0 s = (twoRotate (zs 0 0 1) 0 1 s, max 0 (max (scaleElt (s.X 0 1)) (scaleElt (s.X 1 0)))) := by
        rw [hsweep]; unfold twoStep; simp only [if_pos hq]
      have hpos : 0 < max (scaleElt (s.X 0 1)) (scaleElt (s.X 1 0)) := lt_of_le_of_lt htol hq
      rw [max_eq_right hpos.le] at hs0
      obtain ⟨G, W, a, b, _, _, _, _, _, _, _, hblk, he⟩ := twoRotate_spec (zs 0 0 1) (0 : Fin 2) 1 (by norm_num) s
      have hb2 := (block2_mul s.X (0 : Fin 2) 1 (by norm_num) G.conjTranspose W.conjTranspose).trans hblk
      have hX : (twoRotate (zs 0 0 1) 0 1 s).X 0 1 = 0 ∧ (twoRotate (zs 0 0 1) 0 1 s).X 1 0 = 0 := by
        rw [he]
        exact ⟨congrFun (congrFun hb2 0) 1, congrFun (congrFun hb2 1) 0⟩
      have hq2 : ∀ t, twoSweep tol zs t (twoRotate (zs 0 0 1) 0 1 s) = (twoRotate (zs 0 0 1) 0 1 s, 0) := by
        intro t
        rw [hsweep]
        unfold twoStep
        simp only
        rw [hX.1, hX.2, (scaleElt_eq_zero (0 : 𝕜)).2 rfl, max_self, if_neg (not_lt.2 htol)]
      have hlt : max (scaleElt (s.X 0 1)) (scaleElt (s.X 1 0)) < big' := lt_of_le_of_lt (max_le (hle 0 1) (hle 1 0)) h0
      refine ⟨twoRotate (zs 0 0 1) 0 1 s, ?_⟩
      rw [jacobiLoop, if_pos h1]
      simp only [hs0]
      rw [jacobiLoop, if_pos hlt]
      simp only [hq2]
      rw [jacobiLoop, if_pos hpos]
      simp only [hq2]
      rw [jacobiLoop, if_neg (lt_irrefl _)]
    · refine ⟨s, jacobiLoop_fixed _ _ (fun t => ?_) big big' (lt_trans zero_lt_one h0) h1 (fuel + 1)⟩
      rw [hsweep]; unfold twoStep; simp only [if_neg hq]
  obtain ⟨x, hx⟩ := hloop
  refine ⟨?_, by rw [hx]; rfl⟩
  unfold svdTwoSided
  simp only [if_neg hsc, hx, Option.map_some]
  exact ⟨_, rfl⟩

/-! ## The hypotheses can be met -/

/-- A matrix with a result. -/
example (zs : ℕ → Fin 3 → Fin 3 → ZeroSigns ℝ) : ∃ d, svdTwoSided 0.1 8 7 zs (by norm_num) 3 (!![2, 0; 0, -3; 0, 0] : Matrix (Fin 3) (Fin 2) ℝ) = some d :=
  ⟨_, C42_diagonal 0.1 8 7 (by norm_num) (by norm_num) (by norm_num) zs (by norm_num) 0 _
    (by intro h; simpa using congrFun (congrFun h 0) 0) (by intro i j h; fin_cases i <;> fin_cases j <;> simp_all)⟩

/-- A matrix that is not diagonal meets all hypotheses of `C40_residue_partial`, with the tolerance 0, where the decomposition is exact. -/
example (zs : ℕ → Fin 2 → Fin 2 → ZeroSigns ℝ) : ∃ d, svdTwoSided 0 8 7 zs le_rfl 4 (!![1, 2; 3, 4] : Matrix (Fin 2) (Fin 2) ℝ) = some d ∧
    d.U * Matrix.diagonal d.S * d.V = !![1, 2; 3, 4] := by
  have hA : (!![1, 2; 3, 4] : Matrix (Fin 2) (Fin 2) ℝ) ≠ 0 := by
    intro h; simpa using congrFun (congrFun h 0) 0
  obtain ⟨⟨d, hd⟩, hend⟩ := C40_two_rows 0 8 7 le_rfl (by norm_num) (by norm_num) zs le_rfl 0 _ hA
  have := C40_residue_partial 0 8 7 le_rfl (by norm_num) zs le_rfl 4 _ d hd hend (by intro i; simp)
  refine ⟨d, hd, ?_⟩
  have h0 : ∑ i, ∑ j, ‖(d.U * Matrix.diagonal (fun i => ((d.S i : ℝ) : ℝ)) * d.V) i j - (!![1, 2; 3, 4] : Matrix (Fin 2) (Fin 2) ℝ) i j‖ ^ 2 = 0 :=
    le_antisymm (this.trans (by norm_num)) (Finset.sum_nonneg fun i _ => Finset.sum_nonneg fun j _ => sq_nonneg _)
  ext i j
  have h1 := (Finset.sum_eq_zero_iff_of_nonneg fun i _ => Finset.sum_nonneg fun j _ => sq_nonneg _).1 h0 i (Finset.mem_univ i)
  have h2 := (Finset.sum_eq_zero_iff_of_nonneg fun j _ => sq_nonneg _).1 h1 j (Finset.mem_univ j)
  exact sub_eq_zero.1 (norm_eq_zero.1 (pow_eq_zero_iff two_ne_zero |>.1 h2))

end Mathter.Props
