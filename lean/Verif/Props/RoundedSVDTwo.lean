import Verif.Lemmas.RoundedSVDTwo

/-!
# C106: the two-sided singular value decomposition in floating point
-/

namespace Mathter.Props
open Mathter
variable {r n : ℕ} {fl : ℝ → ℝ} {u w : ℝ}

/-- The longest that a computed cosine and sine can be, about `1 + 7 u + w`; `w` is the relative error of `std::hypot`. -/
noncomputable def cosSinMax (u w : ℝ) : ℝ := (1 + 3 / 2 * ((1 + u) ^ 2 - 1)) * ((1 + u) / (1 - w)) * ((1 + u) / (1 - u) ^ 2)

/-- Relative error of one plane rotation, about `15 u + 3 / 2 w`. -/
noncomputable def rotation2Err (u w : ℝ) : ℝ := 3 / 2 * ((1 + u) ^ 3 * cosSinMax u w - 1)

/-- Relative error of `k` rotations. -/
noncomputable def jacobi2Err (u w : ℝ) (k : ℕ) : ℝ := (1 + rotation2Err u w) ^ k - 1

private theorem twoErr_eq (u w : ℝ) : Fl.twoErr u w = cosSinMax u w - 1 := by
  unfold Fl.twoErr Fl.hypErr Fl.unitErr cosSinMax
  ring

private theorem rotErr_eq2 (u w : ℝ) : Fl.rotErr u (Fl.twoErr u w) = rotation2Err u w := by
  rw [twoErr_eq]
  unfold Fl.rotErr rotation2Err
  ring

/-- C106: cosine and sine of both rotations that `DecomposeSVD2x2` finds have length one up to a few rounding errors, for every 2x2 matrix; the
determinant is `1` or `-1`. -/
theorem C106_kernel (h : Rounding fl u) (h1 : fl 1 = 1) (hu1 : u < 1) {ps : ℝ → ℝ → ℝ → ℝ → ℝ} (hps : Fl.IsProdSum fl ps) (pd : ℝ → ℝ → ℝ → ℝ → ℝ)
    {hyp : ℝ → ℝ → ℝ → ℝ} (hh : Fl.IsHypot w hyp) (hw : 0 ≤ w) (hw1 : w < 1) (hη : cosSinMax u w < 2) (zs : ZeroSigns ℝ) (a11 a12 a21 a22 : ℝ) :
    let d := Fl.decomposeSVD2 fl ps pd hyp zs a11 a12 a21 a22
    |Real.sqrt (d.cu ^ 2 + d.su ^ 2) - 1| ≤ cosSinMax u w - 1 ∧ |Real.sqrt (d.cv ^ 2 + d.sv ^ 2) - 1| ≤ cosSinMax u w - 1 ∧ (d.det = 1 ∨ d.det = -1) := by
  have := Fl.svd2_unit h h1 hu1 hps pd hh hw hw1 (by rw [twoErr_eq]; linarith) zs a11 a12 a21 a22
  rw [twoErr_eq] at this
  refine ⟨this.left, this.right, ?_⟩
  have hd := this.det
  rcases abs_choice (Fl.decomposeSVD2 fl ps pd hyp zs a11 a12 a21 a22).det with e | e <;> rw [e] at hd
  · exact Or.inl hd
  · exact Or.inr (by linarith)

section
variable {ps pd : ℝ → ℝ → ℝ → ℝ → ℝ} {hyp : ℝ → ℝ → ℝ → ℝ} {tol big big' : ℝ} {zs : ℕ → Fin r → Fin r → ZeroSigns ℝ} {hrn : n + 1 ≤ r} {sweeps : ℕ}
  {A : Matrix (Fin r) (Fin (n + 1)) ℝ} {d : SVD ℝ r (n + 1) (n + 1)}

private theorem state (h : Rounding fl u) (h1 : fl 1 = 1) (hu1 : u < 1) (hps : Fl.IsProdSum fl ps) (hpd : Fl.IsProdDiff fl pd) (hh : Fl.IsHypot w hyp)
    (hw : 0 ≤ w) (hw1 : w < 1) (hη : cosSinMax u w < 2) (htol : 0 ≤ tol) (hd : Fl.svdTwoSided fl ps pd hyp tol big big' zs hrn sweeps A = some d) :
    0 < matScaleElements A ∧ ∃ x, jacobiLoop (Fl.twoSweep fl ps pd hyp tol zs) sweeps 0 big big' (Fl.twoInit fl A (matScaleElements A)) = some x ∧
      d = Fl.twoFinish fl hrn (matScaleElements A) x.1 ∧
      ∃ P Q, Fl.TwoErr fl (rotation2Err u w) (Fl.twoInit fl A (matScaleElements A)).X (n + 1) x.1 (sweeps * (r * (r - 1) / 2)) P Q := by
  unfold Fl.svdTwoSided at hd
  simp only at hd
  split at hd
  · simp at hd
  rename_i hsc
  rw [Option.map_eq_some_iff] at hd
  obtain ⟨x, hx, rfl⟩ := hd
  have := Fl.two_err h h1 hu1 hps hpd hh hw hw1 (by rw [twoErr_eq]; linarith) htol zs A _ sweeps big big' x hx
  rw [rotErr_eq2] at this
  exact ⟨lt_of_le_of_ne (le_matScaleElements A).1 (Ne.symm hsc), x, hx, rfl, this⟩

private theorem scale_le (A : Matrix (Fin r) (Fin (n + 1)) ℝ) : matScaleElements A ≤ frob A := by
  unfold matScaleElements
  refine forUp_inv (fun _ x => x ≤ frob A) (Nat.zero_le _) (frob_nonneg A) fun i x _ hx => max_le hx ?_
  unfold scaleElements
  apply Finset.sup'_le
  intro j _
  simpa [RCLike.im_to_real] using abs_le_frob A i j

end

/-- C106: whatever the last sweep has left off the diagonal of the working matrix is the only error of the decomposition besides rounding errors: if these
elements are at most `θ`, then the product of the factors differs from the matrix by that and by rounding errors that grow with the number of sweeps. -/
theorem C106_reconstruct (h : Rounding fl u) (h1 : fl 1 = 1) (hu1 : u < 1) {ps pd : ℝ → ℝ → ℝ → ℝ → ℝ} (hps : Fl.IsProdSum fl ps)
    (hpd : Fl.IsProdDiff fl pd) {hyp : ℝ → ℝ → ℝ → ℝ} (hh : Fl.IsHypot w hyp) (hw : 0 ≤ w) (hw1 : w < 1) (hη : cosSinMax u w < 2) {tol : ℝ} (htol : 0 ≤ tol)
    (big big' : ℝ) (zs : ℕ → Fin r → Fin r → ZeroSigns ℝ) (hrn : n + 1 ≤ r) (sweeps : ℕ) (A : Matrix (Fin r) (Fin (n + 1)) ℝ) (d : SVD ℝ r (n + 1) (n + 1))
    (hd : Fl.svdTwoSided fl ps pd hyp tol big big' zs hrn sweeps A = some d) {θ : ℝ} (hθ0 : 0 ≤ θ)
    (hθ : ∀ x, jacobiLoop (Fl.twoSweep fl ps pd hyp tol zs) sweeps 0 big big' (Fl.twoInit fl A (matScaleElements A)) = some x → ∀ i j, i ≠ j → |x.1.X i j| ≤ θ) :
    frob (d.U * Matrix.diagonal d.S * d.V - A) ≤
      ((1 + u) ^ 2 * (1 + jacobi2Err u w (2 * (sweeps * (r * (r - 1) / 2)))) * (1 + Real.sqrt r * jacobi2Err u w (sweeps * (r * (r - 1) / 2))) ^ 2 - 1 + r * θ) *
        frob A := by
  obtain ⟨hsc, x, hx, rfl, P, Q, hE⟩ := state h h1 hu1 hps hpd hh hw hw1 hη htol hd
  have hθ' := hθ x hx
  have hle := scale_le A
  have hu := h.u_nonneg
  set sc := matScaleElements A
  clear_value sc
  clear hx hθ hd
  generalize x.1 = s at *
  have hX := hE.X
  have hU := hE.U
  have hV := hE.V
  change ∀ i, _ ≤ jacobi2Err u w _ at hU
  change ∀ i, _ ≤ jacobi2Err u w _ at hV
  change _ ≤ jacobi2Err u w _ * _ at hX
  have hr0 : 0 < r := by omega
  have hκ := (norm2_nonneg _).trans (hU ⟨0, hr0⟩)
  have hε : 0 ≤ rotation2Err u w := by
    rw [← rotErr_eq2]
    exact Fl.rotErr_nonneg h ((Fl.unitErr_nonneg h hu1).trans (Fl.unitErr_le_twoErr h hu1 hw hw1))
  have hκ2 : 0 ≤ jacobi2Err u w (2 * (sweeps * (r * (r - 1) / 2))) := by
    unfold jacobi2Err
    linarith [one_le_pow₀ (by linarith : 1 ≤ 1 + rotation2Err u w) (n := 2 * (sweeps * (r * (r - 1) / 2)))]
  generalize jacobi2Err u w (2 * (sweeps * (r * (r - 1) / 2))) = κ2 at *
  generalize jacobi2Err u w (sweeps * (r * (r - 1) / 2)) = κ at *
  -- the padded matrix
  let Ap : Matrix (Fin r) (Fin r) ℝ := Matrix.of fun i j => if h : j.val < n + 1 then A i ⟨j, h⟩ else 0
  have hpad : ∀ M : Matrix (Fin r) (Fin r) ℝ, (∀ i (j : Fin r), n + 1 ≤ j.val → M i j = 0) → frob M = frob (Matrix.of fun i (j : Fin (n + 1)) => M i (Fin.castLE hrn j)) := by
    intro M hM
    unfold frob
    congr 1
    apply Finset.sum_congr rfl
    intro i _
    rw [sum_castLE hrn]
    · rfl
    · intro k hk
      rw [hM i k hk, zero_pow two_ne_zero]
  have hAp : ∀ i (j : Fin r), n + 1 ≤ j.val → Ap i j = 0 := by
    intro i j hj
    simp only [Ap, Matrix.of_apply]
    rw [dif_neg (not_lt.2 hj)]
  have hAp' : ∀ i (j : Fin (n + 1)), Ap i (Fin.castLE hrn j) = A i j := by
    intro i j
    simp only [Ap, Matrix.of_apply]
    rw [dif_pos (by have := j.isLt; simp only [Fin.val_castLE]; omega)]
    rfl
  have hfA : frob Ap = frob A := by
    rw [hpad Ap hAp]
    congr 1
    ext i j
    exact hAp' i j
  have hB : frob (sc • (Fl.twoInit fl A sc).X - Ap) ≤ u * frob Ap := by
    refine frob_le_mul hu fun i j => ?_
    rw [Matrix.sub_apply, Matrix.smul_apply]
    simp only [Fl.twoInit, Ap, Matrix.of_apply, smul_eq_mul]
    split
    · rename_i hj
      have t := mul_le_mul_of_nonneg_left (h.err (A i ⟨j, hj⟩ / sc)) hsc.le
      have e1 : sc * |fl (A i ⟨j, hj⟩ / sc) - A i ⟨j, hj⟩ / sc| = |sc * fl (A i ⟨j, hj⟩ / sc) - A i ⟨j, hj⟩| := by
        have e : sc * fl (A i ⟨j, hj⟩ / sc) - A i ⟨j, hj⟩ = sc * (fl (A i ⟨j, hj⟩ / sc) - A i ⟨j, hj⟩ / sc) := by field_simp
        rw [e, abs_mul, abs_of_pos hsc]
      have e2 : sc * (u * |A i ⟨j, hj⟩ / sc|) = u * |A i ⟨j, hj⟩| := by rw [abs_div, abs_of_pos hsc]; field_simp
      rwa [e1, e2] at t
    · simp
  have hmain := Fl.two_assemble (S := fun i => fl (s.X i i * sc)) hu hκ hκ2 hθ0 hsc hE.unitP hE.unitQ hU hV hX hθ' (fun i => h.err _) hB
  -- the extracted factors
  have hcols := hE.cols
  have hblk := hE.blockV
  have hz : ∀ i (j : Fin r), n + 1 ≤ j.val → (s.U * Matrix.diagonal (fun i => fl (s.X i i * sc)) * s.V) i j = 0 := by
    intro i j hj
    rw [Matrix.mul_apply]
    apply Finset.sum_eq_zero
    intro k _
    rw [Matrix.mul_diagonal, hblk k j (Or.inr hj)]
    split
    · rename_i hkj
      rw [hkj, hcols j j hj, zero_mul, Fl.fl_zero h]; ring
    · ring
  rw [hpad _ (by
    intro i j hj
    rw [Matrix.sub_apply, hz i j hj, hAp i j hj, sub_self]), hfA] at hmain
  have heq : (Matrix.of fun i (j : Fin (n + 1)) => (s.U * Matrix.diagonal (fun i => fl (s.X i i * sc)) * s.V - Ap) i (Fin.castLE hrn j)) =
      (Fl.twoFinish fl hrn sc s).U * Matrix.diagonal (Fl.twoFinish fl hrn sc s).S * (Fl.twoFinish fl hrn sc s).V - A := by
    ext i j
    rw [Matrix.of_apply, Matrix.sub_apply, Matrix.sub_apply, hAp', Matrix.mul_apply, Matrix.mul_apply, sum_castLE hrn]
    · congr 1
      apply Finset.sum_congr rfl
      intro k _
      rw [Matrix.mul_diagonal, Matrix.mul_diagonal]
      rfl
    · intro k hk
      rw [Matrix.mul_diagonal, hcols k k hk, zero_mul, Fl.fl_zero h, mul_zero, zero_mul]
  rw [heq] at hmain
  refine hmain.trans ?_
  have : (r : ℝ) * θ * sc ≤ r * θ * frob A := mul_le_mul_of_nonneg_left hle (by positivity)
  linarith

/-- C106: if the last sweep has found nothing to do, all elements off the diagonal are within the tolerance of a tenth of the machine epsilon, so that the
factors reproduce the matrix up to that and up to rounding errors. -/
theorem C106_converged (h : Rounding fl u) (h1 : fl 1 = 1) (hu1 : u < 1) {ps pd : ℝ → ℝ → ℝ → ℝ → ℝ} (hps : Fl.IsProdSum fl ps)
    (hpd : Fl.IsProdDiff fl pd) {hyp : ℝ → ℝ → ℝ → ℝ} (hh : Fl.IsHypot w hyp) (hw : 0 ≤ w) (hw1 : w < 1) (hη : cosSinMax u w < 2) {tol : ℝ} (htol : 0 ≤ tol)
    {big big' : ℝ} (hbig : big' < big) (zs : ℕ → Fin r → Fin r → ZeroSigns ℝ) (hrn : n + 1 ≤ r) (sweeps : ℕ) (A : Matrix (Fin r) (Fin (n + 1)) ℝ)
    (d : SVD ℝ r (n + 1) (n + 1)) (hd : Fl.svdTwoSided fl ps pd hyp tol big big' zs hrn sweeps A = some d)
    (hend : (jacobiLoop (Fl.twoSweep fl ps pd hyp tol zs) sweeps 0 big big' (Fl.twoInit fl A (matScaleElements A))).map Prod.snd = some 0) :
    frob (d.U * Matrix.diagonal d.S * d.V - A) ≤
      ((1 + u) ^ 2 * (1 + jacobi2Err u w (2 * (sweeps * (r * (r - 1) / 2)))) * (1 + Real.sqrt r * jacobi2Err u w (sweeps * (r * (r - 1) / 2))) ^ 2 - 1 + r * tol) *
        frob A := by
  refine C106_reconstruct h h1 hu1 hps hpd hh hw hw1 hη htol big big' zs hrn sweeps A d hd htol ?_
  intro x hx
  rw [hx] at hend
  simp only [Option.map_some, Option.some.injEq] at hend
  rcases (jacobiLoop_inv (fun _ => True) (fun _ _ _ => trivial) sweeps 0 big big' _ trivial x hx).2 with ⟨-, hn⟩ | ⟨t', s', -, hs⟩
  · exact absurd hbig hn
  · exact (Fl.twoSweep_quiet tol htol zs t' s' x.1 (by rw [hs, ← hend])).2

/-- C106: in any case the rows of `U` are within rounding errors of those of a matrix with orthonormal columns, the columns of `V` of those of an
orthogonal matrix. -/
theorem C106_orthogonal (h : Rounding fl u) (h1 : fl 1 = 1) (hu1 : u < 1) {ps pd : ℝ → ℝ → ℝ → ℝ → ℝ} (hps : Fl.IsProdSum fl ps)
    (hpd : Fl.IsProdDiff fl pd) {hyp : ℝ → ℝ → ℝ → ℝ} (hh : Fl.IsHypot w hyp) (hw : 0 ≤ w) (hw1 : w < 1) (hη : cosSinMax u w < 2) {tol : ℝ} (htol : 0 ≤ tol)
    (big big' : ℝ) (zs : ℕ → Fin r → Fin r → ZeroSigns ℝ) (hrn : n + 1 ≤ r) (sweeps : ℕ) (A : Matrix (Fin r) (Fin (n + 1)) ℝ) (d : SVD ℝ r (n + 1) (n + 1))
    (hd : Fl.svdTwoSided fl ps pd hyp tol big big' zs hrn sweeps A = some d) :
    (∃ P : Matrix (Fin r) (Fin (n + 1)) ℝ, P.transpose * P = 1 ∧ ∀ i, norm2 (fun j => d.U i j - P i j) ≤ jacobi2Err u w (sweeps * (r * (r - 1) / 2))) ∧
    ∃ W : Matrix (Fin (n + 1)) (Fin (n + 1)) ℝ, W.transpose * W = 1 ∧ ∀ j, norm2 (fun i => d.V i j - W i j) ≤ jacobi2Err u w (sweeps * (r * (r - 1) / 2)) := by
  obtain ⟨hsc, x, hx, rfl, P, Q, hE⟩ := state h h1 hu1 hps hpd hh hw hw1 hη htol hd
  generalize x.1 = s at *
  have hle : ∀ f : Fin r → ℝ, (norm2 fun j : Fin (n + 1) => f (Fin.castLE hrn j)) ≤ norm2 f := by
    intro f
    unfold norm2
    apply Real.sqrt_le_sqrt
    have : ∑ k : Fin (n + 1), f (Fin.castLE hrn k) ^ 2 = ∑ k ∈ Finset.univ.map (Fin.castLEEmb hrn), f k ^ 2 := by rw [Finset.sum_map]; rfl
    rw [this]
    exact Finset.sum_le_sum_of_subset_of_nonneg (Finset.subset_univ _) fun _ _ _ => sq_nonneg _
  have hcast : ∀ i j : Fin (n + 1), Fin.castLE hrn i = Fin.castLE hrn j ↔ i = j := fun i j => (Fin.castLE_injective hrn).eq_iff
  refine ⟨⟨Matrix.of fun i j => P i (Fin.castLE hrn j), ?_, fun i => ?_⟩, ⟨Matrix.of fun i j => Q (Fin.castLE hrn i) (Fin.castLE hrn j), ?_, fun j => ?_⟩⟩
  · ext i j
    have := congrFun (congrFun hE.unitP (Fin.castLE hrn i)) (Fin.castLE hrn j)
    rw [Matrix.mul_apply, Matrix.one_apply] at this
    rw [Matrix.mul_apply, Matrix.one_apply]
    simp only [hcast] at this
    exact this
  · exact (hle fun j => s.U i j - P i j).trans (hE.U i)
  · ext i j
    have := congrFun (congrFun hE.unitQ (Fin.castLE hrn i)) (Fin.castLE hrn j)
    rw [Matrix.mul_apply, Matrix.one_apply, sum_castLE hrn] at this
    · rw [Matrix.mul_apply, Matrix.one_apply]
      simp only [hcast] at this
      exact this
    · intro k hk
      rw [hE.blockQ k (Fin.castLE hrn j) (Or.inl hk), if_neg, mul_zero]
      rintro rfl
      have := j.isLt
      simp at hk
      omega
  · exact (hle fun i => s.V i (Fin.castLE hrn j) - Q i (Fin.castLE hrn j)).trans (hE.V (Fin.castLE hrn j))

/-- C106: the sweeps come to an end for every matrix but zero. -/
theorem C106_terminates {p : ℕ} (hp : 1 ≤ p) (h : RoundsToNearest p fl) {ps pd : ℝ → ℝ → ℝ → ℝ → ℝ} (hps : Fl.IsProdSum fl ps) (hpd : Fl.IsProdDiff fl pd)
    (hyp : ℝ → ℝ → ℝ → ℝ) {tol : ℝ} (htol : 0 < tol) (big big' : ℝ) (zs : ℕ → Fin r → Fin r → ZeroSigns ℝ) (hrn : n + 1 ≤ r)
    (A : Matrix (Fin r) (Fin (n + 1)) ℝ) (hA : A ≠ 0) :
    ∃ sweeps d, ∀ k, sweeps ≤ k → Fl.svdTwoSided fl ps pd hyp tol big big' zs hrn k A = some d := by
  have hr := h.rounding hp
  have hsc : matScaleElements A ≠ 0 := fun h => hA ((matScaleElements_eq_zero A).1 h)
  set F : Finset ℝ := insert 0 (Fl.isFloat_finite p htol big').toFinset with hF
  have hend := Fl.jacobiLoop_ends (sweep := Fl.twoSweep fl ps pd hyp tol zs) (fun s : TwoState ℝ r => ∀ i j, fl (s.X i j) = s.X i j) F big'
    (fun t s hs => (Fl.twoSweep_error hr hps hpd tol zs t s hs).1) (fun t s hs hlt => by
      rcases (Fl.twoSweep_error (hyp := hyp) hr hps hpd tol zs t s hs).2 with e | ⟨e1, e2⟩
      · rw [e, hF]; exact Finset.mem_insert_self _ _
      · rw [hF]
        refine Finset.mem_insert_of_mem ((Set.Finite.mem_toFinset _).2 ⟨?_, e2, hlt⟩)
        rw [← e1]; exact h.mem _)
    _ 0 big big' (Fl.twoInit fl A (matScaleElements A)) (by
      intro i j
      unfold Fl.twoInit
      simp only [Matrix.of_apply]
      split
      · exact hr.idem _
      · exact Fl.fl_zero hr) le_rfl le_rfl
  obtain ⟨x, hx⟩ := hend
  refine ⟨(F.filter (· < big')).card + 2, Fl.twoFinish fl hrn (matScaleElements A) x.1, fun k hk => ?_⟩
  unfold Fl.svdTwoSided
  simp only
  rw [if_neg hsc, Fl.jacobiLoop_fuel _ k 0 big big' _ x hk hx, Option.map_some]

/-- C106: the error of `k` rotations is a small multiple of `k` times the unit roundoff. -/
theorem C106_size {k : ℕ} (hu : 0 ≤ u) (hu1 : 1000 * u ≤ 1) (hw : 0 ≤ w) (hwu : w ≤ 2 * u) (hk : 60 * k * u ≤ 1) :
    cosSinMax u w ≤ 1 + 10 * u ∧ 0 ≤ jacobi2Err u w k ∧ jacobi2Err u w k ≤ 60 * k * u := by
  have c1 : (1 + u) / (1 - w) ≤ 1 + 3.02 * u := by
    rw [div_le_iff₀ (by linarith)]
    nlinarith
  have c2 : (1 + u) / (1 - u) ^ 2 ≤ 1 + 3.02 * u := by
    rw [div_le_iff₀ (by nlinarith)]
    nlinarith [mul_nonneg hu hu, mul_nonneg (mul_nonneg hu hu) hu]
  have c0 : 1 + 3 / 2 * ((1 + u) ^ 2 - 1) ≤ 1 + 3.01 * u := by nlinarith
  have d1 : 1 ≤ (1 + u) / (1 - w) := by rw [le_div_iff₀ (by linarith)]; linarith
  have d2 : 1 ≤ (1 + u) / (1 - u) ^ 2 := by rw [le_div_iff₀ (by nlinarith)]; nlinarith
  have d0 : 1 ≤ 1 + 3 / 2 * ((1 + u) ^ 2 - 1) := by nlinarith
  have hc : cosSinMax u w ≤ 1 + 10 * u := by
    unfold cosSinMax
    have t1 := mul_le_mul c0 c1 (by linarith) (by linarith)
    have t2 := mul_le_mul t1 c2 (by linarith) (by positivity)
    refine t2.trans ?_
    have q1 : u * u ≤ u / 1000 := by nlinarith
    have q2 : u * u * u ≤ u / 1000 := by nlinarith [mul_nonneg hu hu]
    nlinarith
  have hc1 : 1 ≤ cosSinMax u w := by
    unfold cosSinMax
    exact one_le_mul_of_one_le_of_one_le (one_le_mul_of_one_le_of_one_le d0 d1) d2
  have e1 : rotation2Err u w ≤ 30 * u := by
    unfold rotation2Err
    have t0 : (1 + u) ^ 3 ≤ 1 + 3.01 * u := by
      have q1 : u * u ≤ u / 1000 := by nlinarith
      have q2 : u * u * u ≤ u / 1000000 := by nlinarith [mul_nonneg hu hu]
      nlinarith
    have t := mul_le_mul t0 hc (by linarith) (by linarith)
    nlinarith
  have e0 : 0 ≤ rotation2Err u w := by
    unfold rotation2Err
    have := one_le_mul_of_one_le_of_one_le (one_le_pow₀ (by linarith : 1 ≤ 1 + u) (n := 3)) hc1
    linarith
  refine ⟨hc, ?_⟩
  unfold jacobi2Err
  have hkn : (0 : ℝ) ≤ k := Nat.cast_nonneg k
  refine ⟨by linarith [one_le_pow₀ (by linarith : 1 ≤ 1 + rotation2Err u w) (n := k)], ?_⟩
  have b : (1 + rotation2Err u w) ^ k ≤ (1 + 30 * u) ^ k := pow_le_pow_left₀ (by linarith) (by linarith) k
  have b1 := one_add_mul_le_pow (a := -(30 * u) / (1 + 30 * u)) (by rw [le_div_iff₀ (by linarith)]; linarith) k
  have e : 1 + -(30 * u) / (1 + 30 * u) = 1 / (1 + 30 * u) := by field_simp; ring
  rw [e, div_pow, one_pow] at b1
  have hp : 0 < (1 + 30 * u) ^ k := by positivity
  have b2 : 1 - k * (30 * u) ≤ 1 / (1 + 30 * u) ^ k := by
    refine le_trans ?_ b1
    have : 30 * u / (1 + 30 * u) ≤ 30 * u := div_le_self (by linarith) (by linarith)
    have := mul_le_mul_of_nonneg_left this hkn
    have e2 : (k : ℝ) * (-(30 * u) / (1 + 30 * u)) = -(k * (30 * u / (1 + 30 * u))) := by ring
    linarith
  rw [le_div_iff₀ hp] at b2
  have hx : 0 ≤ k * (30 * u) := by positivity
  nlinarith

/-! ## Examples -/

/-- The smallness conditions hold for single precision, and a thousand rotations change the result by little. -/
example : Rounding (flAway 24) ((2 : ℝ) ^ (-((24 : ℕ) : ℤ))) ∧ flAway 24 1 = 1 ∧ cosSinMax ((2 : ℝ) ^ (-((24 : ℕ) : ℤ))) ((2 : ℝ) ^ (-((24 : ℕ) : ℤ))) < 2 ∧
    jacobi2Err ((2 : ℝ) ^ (-((24 : ℕ) : ℤ))) ((2 : ℝ) ^ (-((24 : ℕ) : ℤ))) 1000 ≤ 1 / 100 := by
  have hn := flAway_roundsToNearest (p := 24) (by norm_num)
  have hs := C106_size (u := (2 : ℝ) ^ (-((24 : ℕ) : ℤ))) (w := (2 : ℝ) ^ (-((24 : ℕ) : ℤ))) (k := 1000) (by positivity) (by norm_num) (by positivity)
    (by norm_num) (by norm_num)
  refine ⟨hn.rounding (by norm_num), ?_, lt_of_le_of_lt hs.1 (by norm_num), hs.2.2.trans (by norm_num)⟩
  have := hn.nearest 1 1 ⟨1, 0, by norm_num, by norm_num⟩
  rw [sub_self, abs_zero] at this
  exact sub_eq_zero.1 (abs_nonpos_iff.1 this)

/-- A matrix that is not diagonal has a decomposition, and some off-diagonal bound. -/
example (zs : ℕ → Fin 3 → Fin 3 → ZeroSigns ℝ) : ∃ sweeps d, Fl.svdTwoSided (flAway 24) (fun a b c d => flAway 24 (flAway 24 (a * b) + flAway 24 (c * d)))
    (fun a b c d => flAway 24 (flAway 24 (a * b) - flAway 24 (c * d))) (fun x y z => flAway 24 (Real.sqrt (x ^ 2 + y ^ 2 + z ^ 2))) (1 / 10 * 2 ^ (-23 : ℤ)) 8 7 zs
    (by norm_num : 1 + 1 ≤ 3) sweeps !![1, 2; 3, 4; 5, 6] = some d := by
  obtain ⟨k, d, hd⟩ := C106_terminates (p := 24) (by norm_num) (flAway_roundsToNearest (p := 24) (by norm_num)) (fun _ _ _ _ => Or.inl rfl)
    (fun _ _ _ _ => Or.inl rfl) (fun x y z => flAway 24 (Real.sqrt (x ^ 2 + y ^ 2 + z ^ 2))) (by positivity : (0 : ℝ) < 1 / 10 * 2 ^ (-23 : ℤ)) 8 7 zs
    (by norm_num : 1 + 1 ≤ 3) !![1, 2; 3, 4; 5, 6] (fun h => by
      have := congrFun (congrFun h 0) 0
      simp at this)
  exact ⟨k, d, hd k le_rfl⟩

/-- A sweep that finds nothing to do does occur: here at once, as the matrix is diagonal; it takes away the error of an earlier sweep. -/
example (ps pd : ℝ → ℝ → ℝ → ℝ → ℝ) (hyp : ℝ → ℝ → ℝ → ℝ) (zs : ℕ → Fin 2 → Fin 2 → ZeroSigns ℝ) (fuel : ℕ) :
    (jacobiLoop (Fl.twoSweep (flAway 24) ps pd hyp (1 / 10 * 2 ^ (-23 : ℤ)) zs) (fuel + 3) 0 8 7
      (Fl.twoInit (flAway 24) !![(3 : ℝ), 0; 0, 2] (matScaleElements !![(3 : ℝ), 0; 0, 2]))).map Prod.snd = some 0 := by
  have hr := (flAway_roundsToNearest (p := 24) (by norm_num)).rounding (by norm_num)
  rw [jacobiLoop_fixed _ _ _ _ _ (by norm_num) (by norm_num)]
  · rfl
  · intro t
    have h01 : (Fl.twoInit (flAway 24) !![(3 : ℝ), 0; 0, 2] (matScaleElements !![(3 : ℝ), 0; 0, 2])).X 0 1 = 0 := by
      simp [Fl.twoInit, Fl.fl_zero hr]
    have h10 : (Fl.twoInit (flAway 24) !![(3 : ℝ), 0; 0, 2] (matScaleElements !![(3 : ℝ), 0; 0, 2])).X 1 0 = 0 := by
      simp [Fl.twoInit, Fl.fl_zero hr]
    refine pairs_inv (fun x => x = (Fl.twoInit (flAway 24) !![(3 : ℝ), 0; 0, 2] (matScaleElements !![(3 : ℝ), 0; 0, 2]), (0 : ℝ))) rfl ?_
    rintro p q x hpq rfl
    have hp : p = 0 := by omega
    have hq : q = 1 := by omega
    subst hp hq
    unfold Fl.twoStep
    simp only [h01, h10]
    rw [if_neg]
    simp only [abs_zero, max_self, gt_iff_lt, not_lt]
    positivity

end Mathter.Props
