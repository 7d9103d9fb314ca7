import Verif.Lemmas.SVDOne
import Verif.Props.SVD
import Mathlib.Data.Fin.Tuple.Sort

/-!
# The one-sided Jacobi SVD (C40, C42)

`σ` is the order in which `std::sort` has put the columns: any permutation that sorts the lengths in decreasing order.
-/

namespace Mathter.Props
open Mathter
universe u
variable {𝕜 : Type u} [RCLike 𝕜] {r n k : ℕ}

/-- The result of `std::sort` for the columns of `X`: decreasing length. -/
def SortsColumns (X : Matrix (Fin r) (Fin n) 𝕜) (σ : Equiv.Perm (Fin n)) : Prop :=
  ∀ i j, i ≤ j → length (fun a => X a (σ j)) ≤ length (fun a => X a (σ i))

private theorem oneInit_inv (A : Matrix (Fin r) (Fin n) 𝕜) (sc : ℝ) : OneInv (oneInit A sc).X (oneInit A sc) :=
  ⟨by simp [oneInit], by simp [oneInit]⟩

private theorem oneInit_X (A : Matrix (Fin r) (Fin n) 𝕜) (sc : ℝ) (h : sc ≠ 0) (i : Fin r) (j : Fin n) : A i j = (sc : 𝕜) * (oneInit A sc).X i j := by
  have hK : ((sc : ℝ) : 𝕜) ≠ 0 := by exact_mod_cast h
  simp only [oneInit, Matrix.of_apply]
  field_simp

/-- What `svdOneSided` returns in terms of the final state. -/
private theorem oneSided_state {lo hi eps big big' : ℝ} {negS : ℕ → Fin (n + 1) → Fin (n + 1) → Bool} {neg : Fin (n + 1) → Bool}
    {σ : Equiv.Perm (Fin (n + 1))} {hrn : n + 1 ≤ r + 1} {fuel : ℕ} {A : Matrix (Fin (r + 1)) (Fin (n + 1)) 𝕜} {d : SVD 𝕜 (r + 1) (n + 1) (n + 1)}
    (h : svdOneSided lo hi eps big big' negS neg σ hrn fuel A = some d) :
    matScaleElements A ≠ 0 ∧ ∃ x, jacobiLoop (oneSweep negS) fuel 0 big big' (oneInit A (matScaleElements A)) = some x ∧
      OneInv (oneInit A (matScaleElements A)).X x.1 ∧ (¬ big' < big ∨ ∃ t' s', oneSweep negS t' s' = x) ∧
      d = oneFinish lo hi eps neg σ hrn (matScaleElements A) x.1 := by
  unfold svdOneSided at h
  simp only at h
  by_cases h0 : matScaleElements A = 0
  · rw [if_pos h0] at h; cases h
  · rw [if_neg h0] at h
    refine ⟨h0, ?_⟩
    rw [Option.map_eq_some_iff] at h
    obtain ⟨x, hx, hd⟩ := h
    have := jacobiLoop_inv (sweep := oneSweep negS) (fun s => OneInv (oneInit A (matScaleElements A)).X s)
      (fun t s hs => hs.sweep negS t) fuel 0 big big' _ (oneInit_inv A _) x hx
    refine ⟨x, hx, this.1, ?_, hd.symm⟩
    rcases this.2 with h2 | ⟨t', s', _, h2⟩
    · exact Or.inl h2.2
    · exact Or.inr ⟨t', s', h2⟩

/-- `oneFinish` by cases. -/
private theorem oneFinish_cases (lo hi eps : ℝ) (neg : Fin (n + 1) → Bool) (σ : Equiv.Perm (Fin (n + 1))) (hrn : n + 1 ≤ r + 1) (sc : ℝ)
    (s : OneState 𝕜 (r + 1) (n + 1)) :
    let S : Fin (n + 1) → ℝ := fun i => length fun j => s.X j (σ i)
    let X : Matrix (Fin (r + 1)) (Fin (n + 1)) 𝕜 := Matrix.of fun j i => if S i ≠ 0 then s.X j (σ i) / (S i : 𝕜) else s.X j (σ i)
    ((∀ i, S 0 * Real.sqrt eps ≤ S i) ∧ oneFinish lo hi eps neg σ hrn sc s = ⟨X, fun i => S i * sc, Matrix.of fun i j => s.V (σ i) j⟩) ∨
    ((∃ i, S i < S 0 * Real.sqrt eps) ∧ oneFinish lo hi eps neg σ hrn sc s =
      ⟨(decomposeQR lo hi hrn X).Q, fun i => copysignR (neg i) (S i) (RCLike.re ((decomposeQR lo hi hrn X).R i i)) * sc,
        Matrix.of fun i j => s.V (σ i) j⟩) := by
  intro S X
  unfold oneFinish
  simp only
  by_cases hall : ∀ i, S 0 * Real.sqrt eps ≤ S i
  · left
    refine ⟨hall, ?_⟩
    rw [if_neg]
    rw [not_not, Finset.filter_true_of_mem fun i _ => hall i]
    simp
  · right
    push Not at hall
    refine ⟨hall, ?_⟩
    rw [if_pos]
    obtain ⟨i, hi⟩ := hall
    intro hc
    have hlt : (Finset.univ.filter fun i => S i ≥ S 0 * Real.sqrt eps).card < (Finset.univ : Finset (Fin (n + 1))).card :=
      Finset.card_lt_card (Finset.filter_ssubset.2 ⟨i, Finset.mem_univ _, not_le.2 hi⟩)
    rw [Finset.card_univ, Fintype.card_fin] at hlt
    exact absurd hc hlt.ne

private theorem length_nonneg' (v : Fin r → 𝕜) : 0 ≤ length v := length_nonneg v

private theorem column_smul (X : Matrix (Fin r) (Fin n) 𝕜) (i : Fin n) (S : ℝ) (hS : S = length fun a => X a i) (a : Fin r) :
    (if S ≠ 0 then X a i / (S : 𝕜) else X a i) * (S : 𝕜) = X a i := by
  split
  · rename_i h
    have : ((S : ℝ) : 𝕜) ≠ 0 := by exact_mod_cast h
    field_simp
  · rename_i h
    have h0 : S = 0 := not_not.1 h
    have : (fun a => X a i) = 0 := (length_eq_zero _).1 (by rw [← hS, h0])
    have := congrFun this a
    simp only [Pi.zero_apply] at this
    rw [this]; simp

/-- The sum over the sorted columns is the sum over the columns. -/
private theorem sorted_mul (s : OneState 𝕜 r n) (σ : Equiv.Perm (Fin n)) (i : Fin r) (j : Fin n) : ∑ l, s.X i (σ l) * s.V (σ l) j = (s.X * s.V) i j := by
  rw [Matrix.mul_apply]
  exact Equiv.sum_comp σ fun l => s.X i l * s.V l j

private theorem perm_unitary {V : Matrix (Fin n) (Fin n) 𝕜} (h : V.conjTranspose * V = 1) (σ : Equiv.Perm (Fin n)) :
    (Matrix.of fun i j => V (σ i) j).conjTranspose * (Matrix.of fun i j => V (σ i) j) = 1 := by
  ext i j
  have := congrFun (congrFun h i) j
  rw [Matrix.mul_apply] at this ⊢
  rw [← this]
  exact Equiv.sum_comp σ fun l => V.conjTranspose i l * V l j

/-- C40: whatever the number of sweeps, `V` is unitary, and the magnitudes of `S` are the lengths of `A` applied to the conjugate rows of `V`. -/
theorem C40_one_sided (lo hi eps big big' : ℝ) (negS : ℕ → Fin (n + 1) → Fin (n + 1) → Bool) (neg : Fin (n + 1) → Bool)
    (σ : Equiv.Perm (Fin (n + 1))) (hrn : n + 1 ≤ r + 1) (fuel : ℕ) (A : Matrix (Fin (r + 1)) (Fin (n + 1)) 𝕜) (d : SVD 𝕜 (r + 1) (n + 1) (n + 1))
    (h : svdOneSided lo hi eps big big' negS neg σ hrn fuel A = some d) :
    d.V.conjTranspose * d.V = 1 ∧ d.V * d.V.conjTranspose = 1 ∧ ∀ i, |d.S i| = length (A.mulVec fun j => star (d.V i j)) := by
  obtain ⟨h0, x, _, hI, _, hd⟩ := oneSided_state h
  have hsc := (le_matScaleElements A).1
  have hX := oneInit_X A (matScaleElements A) h0
  generalize matScaleElements A = sc at *
  obtain ⟨h1, h2⟩ := hI
  have hVS : d.V = (Matrix.of fun i j => x.1.V (σ i) j) ∧ ∀ i, |d.S i| = length (fun j => x.1.X j (σ i)) * sc := by
    rcases oneFinish_cases lo hi eps neg σ hrn sc x.1 with ⟨_, he⟩ | ⟨_, he⟩
    · rw [hd, he]
      refine ⟨rfl, fun i => ?_⟩
      simp only
      rw [abs_of_nonneg (mul_nonneg (length_nonneg _) hsc)]
    · rw [hd, he]
      refine ⟨rfl, fun i => ?_⟩
      simp only
      rw [abs_mul, abs_copysignR, abs_of_nonneg hsc, abs_of_nonneg (length_nonneg _)]
  have hV : d.V.conjTranspose * d.V = 1 := by rw [hVS.1]; exact perm_unitary h2 σ
  refine ⟨hV, mul_eq_one_comm.1 hV, fun i => ?_⟩
  have h2' : x.1.V * x.1.V.conjTranspose = 1 := mul_eq_one_comm.1 h2
  have hXeq : x.1.X = (oneInit A sc).X * x.1.V.conjTranspose := by
    rw [← h1, Matrix.mul_assoc, h2', Matrix.mul_one]
  rw [hVS.2 i]
  have e : (A.mulVec fun j => star (d.V i j)) = ((sc : ℝ) : 𝕜) • fun a => x.1.X a (σ i) := by
    funext a
    rw [hVS.1]
    simp only [Matrix.mulVec, dotProduct, Pi.smul_apply, smul_eq_mul, Matrix.of_apply]
    rw [hXeq, Matrix.mul_apply, Finset.mul_sum]
    apply Finset.sum_congr rfl
    intro j _
    rw [hX a j, Matrix.conjTranspose_apply]; ring
  rw [e, length_smul, RCLike.norm_ofReal, abs_of_nonneg hsc, mul_comm]

/-- C40, C42: unless the singular values spread so widely that the code takes its QR branch, `U * S * V` is exactly `A` whatever the number of
sweeps, and `S` is nonnegative and sorted. -/
theorem C40_one_sided_reconstruct (lo hi eps big big' : ℝ) (negS : ℕ → Fin (n + 1) → Fin (n + 1) → Bool) (neg : Fin (n + 1) → Bool)
    (σ : Equiv.Perm (Fin (n + 1))) (hrn : n + 1 ≤ r + 1) (fuel : ℕ) (A : Matrix (Fin (r + 1)) (Fin (n + 1)) 𝕜) (d : SVD 𝕜 (r + 1) (n + 1) (n + 1))
    (h : svdOneSided lo hi eps big big' negS neg σ hrn fuel A = some d) (hrange : ∀ i, |d.S 0| * Real.sqrt eps ≤ |d.S i|) :
    d.U * Matrix.diagonal (fun i => ((d.S i : ℝ) : 𝕜)) * d.V = A ∧ ∀ i, 0 ≤ d.S i := by
  obtain ⟨h0, x, _, hI, _, hd⟩ := oneSided_state h
  have hsc := (le_matScaleElements A).1
  have hX := oneInit_X A (matScaleElements A) h0
  generalize matScaleElements A = sc at *
  have hscp : 0 < sc := lt_of_le_of_ne hsc (Ne.symm h0)
  rcases oneFinish_cases lo hi eps neg σ hrn sc x.1 with ⟨_, he⟩ | ⟨⟨i, hi⟩, he⟩
  · rw [hd, he]
    refine ⟨?_, fun i => mul_nonneg (length_nonneg _) hsc⟩
    ext i j
    rw [Matrix.mul_apply, hX i j, ← hI.eq, ← sorted_mul x.1 σ, Finset.mul_sum]
    apply Finset.sum_congr rfl
    intro l _
    rw [Matrix.mul_diagonal]
    simp only [Matrix.of_apply]
    have := column_smul x.1.X (σ l) _ rfl i
    push_cast
    linear_combination ((sc : ℝ) : 𝕜) * x.1.V (σ l) j * this
  · exfalso
    have := hrange i
    rw [hd, he] at this
    simp only at this
    rw [abs_mul, abs_mul, abs_copysignR, abs_copysignR, abs_of_nonneg (length_nonneg _), abs_of_nonneg (length_nonneg _), abs_of_nonneg hsc] at this
    nlinarith

/-- C42: the singular values of the one-sided algorithm come in decreasing magnitude. -/
theorem C42_one_sided_sorted (lo hi eps big big' : ℝ) (negS : ℕ → Fin (n + 1) → Fin (n + 1) → Bool) (neg : Fin (n + 1) → Bool)
    (σ : Equiv.Perm (Fin (n + 1))) (hrn : n + 1 ≤ r + 1) (fuel : ℕ) (A : Matrix (Fin (r + 1)) (Fin (n + 1)) 𝕜) (d : SVD 𝕜 (r + 1) (n + 1) (n + 1))
    (h : svdOneSided lo hi eps big big' negS neg σ hrn fuel A = some d)
    (hσ : ∀ x, jacobiLoop (oneSweep negS) fuel 0 big big' (oneInit A (matScaleElements A)) = some x → SortsColumns x.1.X σ)
    (i j : Fin (n + 1)) (hij : i ≤ j) : |d.S j| ≤ |d.S i| := by
  obtain ⟨h0, x, hx, _, _, hd⟩ := oneSided_state h
  have hsc := (le_matScaleElements A).1
  have hs := hσ x hx i j hij
  rw [hd]
  rcases oneFinish_cases lo hi eps neg σ hrn (matScaleElements A) x.1 with ⟨_, he⟩ | ⟨_, he⟩
  · rw [he]
    simp only
    rw [abs_of_nonneg (mul_nonneg (length_nonneg _) hsc), abs_of_nonneg (mul_nonneg (length_nonneg _) hsc)]
    exact mul_le_mul_of_nonneg_right hs hsc
  · rw [he]
    simp only
    rw [abs_mul, abs_mul, abs_copysignR, abs_copysignR, abs_of_nonneg (length_nonneg _), abs_of_nonneg (length_nonneg _), abs_of_nonneg hsc]
    exact mul_le_mul_of_nonneg_right hs hsc

private theorem gramElt_scaled (X : Matrix (Fin r) (Fin n) 𝕜) (σ : Equiv.Perm (Fin n)) (S : Fin n → ℝ) (hS : ∀ i, S i = length fun a => X a (σ i)) :
    (∀ i j, i ≠ j → gramElt X (σ i) (σ j) = 0 →
      gramElt (Matrix.of fun a i => if S i ≠ 0 then X a (σ i) / (S i : 𝕜) else X a (σ i)) i j = 0) ∧
    (∀ i, gramElt (Matrix.of fun a i => if S i ≠ 0 then X a (σ i) / (S i : 𝕜) else X a (σ i)) i i = if S i = 0 then 0 else 1) := by
  have hcol : ∀ i a, (if S i ≠ 0 then X a (σ i) / (S i : 𝕜) else X a (σ i)) = (((if S i = 0 then 1 else (S i)⁻¹ : ℝ)) : 𝕜) * X a (σ i) := by
    intro i a
    by_cases h0 : S i = 0
    · simp [h0]
    · rw [if_pos h0, if_neg h0]; push_cast; rw [div_eq_inv_mul]
  refine ⟨?_, ?_⟩
  · intro i j _ h0
    simp only [gramElt, Matrix.of_apply, hcol, star_mul', star_ofReal_K]
    have : ∀ (c e : 𝕜), ∑ a, c * star (X a (σ i)) * (e * X a (σ j)) = c * e * gramElt X (σ i) (σ j) := by
      intro c e
      rw [gramElt, Finset.mul_sum]
      exact Finset.sum_congr rfl fun a _ => by ring
    rw [this, h0, mul_zero]
  · intro i
    simp only [gramElt, Matrix.of_apply, hcol, star_mul', star_ofReal_K]
    have : ∀ (c : 𝕜), ∑ a, c * star (X a (σ i)) * (c * X a (σ i)) = c ^ 2 * ∑ a, star (X a (σ i)) * X a (σ i) := by
      intro c
      rw [Finset.mul_sum]
      exact Finset.sum_congr rfl fun a _ => by ring
    rw [this, sum_star_self, ← hS i]
    by_cases h0 : S i = 0
    · simp [h0]
    · rw [if_neg h0, if_neg h0]
      have : ((S i : ℝ) : 𝕜) ≠ 0 := by exact_mod_cast h0
      push_cast
      field_simp

/-- C40: if the last sweep found every pair of columns orthogonal (its `maxError` is zero), `U` has orthonormal columns, in both branches of the
code, for real and complex matrices and for every rank but zero. -/
theorem C40_one_sided_orthonormal (lo hi eps big big' : ℝ) (hlo : 0 < lo) (hh : lo ≤ hi) (heps : 0 < eps) (hbig : big' < big)
    (negS : ℕ → Fin (n + 1) → Fin (n + 1) → Bool) (neg : Fin (n + 1) → Bool)
    (σ : Equiv.Perm (Fin (n + 1))) (hrn : n + 1 ≤ r + 1) (fuel : ℕ) (A : Matrix (Fin (r + 1)) (Fin (n + 1)) 𝕜) (d : SVD 𝕜 (r + 1) (n + 1) (n + 1))
    (h : svdOneSided lo hi eps big big' negS neg σ hrn fuel A = some d)
    (hσ : ∀ x, jacobiLoop (oneSweep negS) fuel 0 big big' (oneInit A (matScaleElements A)) = some x → SortsColumns x.1.X σ)
    (hend : (jacobiLoop (oneSweep negS) fuel 0 big big' (oneInit A (matScaleElements A))).map Prod.snd = some 0) :
    d.U.conjTranspose * d.U = 1 := by
  obtain ⟨h0, x, hx, hI, hlast, hd⟩ := oneSided_state h
  have hs := hσ x hx
  rw [hx] at hend
  simp only [Option.map_some, Option.some.injEq] at hend
  have horth : ∀ i j, i ≠ j → gramElt x.1.X i j = 0 := by
    rcases hlast with h | ⟨t', s', h⟩
    · exact absurd hbig h
    · exact (oneSweep_quiet negS t' s' x.1 (by rw [h, ← hend])).2
  have hX := oneInit_X A (matScaleElements A) h0
  have hA : A ≠ 0 := fun h => h0 ((matScaleElements_eq_zero A).2 h)
  clear hσ hlast hx
  generalize matScaleElements A = sc at *
  set S : Fin (n + 1) → ℝ := fun i => length fun a => x.1.X a (σ i) with hS
  set X : Matrix (Fin (r + 1)) (Fin (n + 1)) 𝕜 := Matrix.of fun a i => if S i ≠ 0 then x.1.X a (σ i) / ((S i : ℝ) : 𝕜) else x.1.X a (σ i) with hXd
  obtain ⟨g1, g2⟩ := gramElt_scaled x.1.X σ S (fun i => rfl)
  rcases oneFinish_cases lo hi eps neg σ hrn sc x.1 with ⟨hall, he⟩ | ⟨_, he⟩
  · have hS0 : 0 < S 0 := by
      refine lt_of_le_of_ne (length_nonneg _) ?_
      intro hz
      apply hA
      have hall : ∀ i a, x.1.X a (σ i) = 0 := by
        intro i a
        have h1 : length (fun a => x.1.X a (σ i)) = 0 := le_antisymm (le_trans (hs 0 i (Fin.zero_le _)) hz.symm.le) (length_nonneg _)
        exact congrFun ((length_eq_zero _).1 h1) a
      ext i j
      rw [hX i j, ← hI.eq, ← sorted_mul x.1 σ, Finset.sum_eq_zero, mul_zero]
      · rfl
      · intro l _; rw [hall l i, zero_mul]
    have hU : d.U = X := by rw [hd, he]
    rw [hU]
    ext i j
    have e : (X.conjTranspose * X) i j = gramElt X i j := by rw [Matrix.mul_apply]; rfl
    refine e.trans ?_
    by_cases hij : i = j
    · subst hij
      have hSi : S i ≠ 0 := (lt_of_lt_of_le (mul_pos hS0 (Real.sqrt_pos.2 heps)) (hall i)).ne'
      rw [Matrix.one_apply_eq]
      exact (g2 i).trans (if_neg hSi)
    · rw [Matrix.one_apply_ne hij]; exact g1 i j hij (horth _ _ fun h => hij (σ.injective h))
  · rw [hd, he]
    exact (decomposeQR_spec lo hi hlo hh hrn X).1

/-- C40: if the last sweep found every pair of columns orthogonal (its `maxError` is zero) and `A` is real, then `U * S * V` is exactly `A` and
`U` has orthonormal columns, in both branches of the code and for every rank but zero. Missing: complex matrices of deficient rank
(`C40_one_sided_complex_violated`). -/
theorem C40_one_sided_real_partial (lo hi eps big big' : ℝ) (hlo : 0 < lo) (hh : lo ≤ hi) (heps : 0 < eps) (hbig : big' < big)
    (negS : ℕ → Fin (n + 1) → Fin (n + 1) → Bool) (neg : Fin (n + 1) → Bool)
    (σ : Equiv.Perm (Fin (n + 1))) (hrn : n + 1 ≤ r + 1) (fuel : ℕ) (A : Matrix (Fin (r + 1)) (Fin (n + 1)) ℝ) (d : SVD ℝ (r + 1) (n + 1) (n + 1))
    (h : svdOneSided lo hi eps big big' negS neg σ hrn fuel A = some d)
    (hσ : ∀ x, jacobiLoop (oneSweep negS) fuel 0 big big' (oneInit A (matScaleElements A)) = some x → SortsColumns x.1.X σ)
    (hend : (jacobiLoop (oneSweep negS) fuel 0 big big' (oneInit A (matScaleElements A))).map Prod.snd = some 0) :
    d.U.conjTranspose * d.U = 1 ∧ d.U * Matrix.diagonal d.S * d.V = A := by
  have hplain := C40_one_sided_reconstruct lo hi eps big big' negS neg σ hrn fuel A d h
  obtain ⟨h0, x, hx, hI, hlast, hd⟩ := oneSided_state h
  have hs := hσ x hx
  rw [hx] at hend
  simp only [Option.map_some, Option.some.injEq] at hend
  have horth : ∀ i j, i ≠ j → gramElt x.1.X i j = 0 := by
    rcases hlast with h | ⟨t', s', h⟩
    · exact absurd hbig h
    · exact (oneSweep_quiet negS t' s' x.1 (by rw [h, ← hend])).2
  have hsc := (le_matScaleElements A).1
  have hX := oneInit_X A (matScaleElements A) h0
  have hA : A ≠ 0 := fun h => h0 ((matScaleElements_eq_zero A).2 h)
  clear hσ hlast hx
  generalize matScaleElements A = sc at *
  set S : Fin (n + 1) → ℝ := fun i => length fun a => x.1.X a (σ i) with hS
  set X : Matrix (Fin (r + 1)) (Fin (n + 1)) ℝ := Matrix.of fun a i => if S i ≠ 0 then x.1.X a (σ i) / ((S i : ℝ) : ℝ) else x.1.X a (σ i) with hXd
  obtain ⟨g1, g2⟩ := gramElt_scaled x.1.X σ S (fun i => rfl)
  have g1' : ∀ i j, i ≠ j → gramElt X i j = 0 := fun i j hij => g1 i j hij (horth _ _ fun h => hij (σ.injective h))
  have hS0 : 0 < S 0 := by
    refine lt_of_le_of_ne (length_nonneg _) ?_
    intro hz
    apply hA
    have hall : ∀ i a, x.1.X a (σ i) = 0 := by
      intro i a
      have h1 : length (fun a => x.1.X a (σ i)) = 0 := le_antisymm (le_trans (hs 0 i (Fin.zero_le _)) hz.symm.le) (length_nonneg _)
      exact congrFun ((length_eq_zero _).1 h1) a
    ext i j
    rw [hX i j, ← hI.eq, ← sorted_mul x.1 σ, Finset.sum_eq_zero, mul_zero]
    · rfl
    · intro l _; rw [hall l i, zero_mul]
  rcases oneFinish_cases lo hi eps neg σ hrn sc x.1 with ⟨hall, he⟩ | ⟨_, he⟩
  · have hd2 := hd.trans he
    have hrange : ∀ i, |d.S 0| * Real.sqrt eps ≤ |d.S i| := by
      intro i
      rw [hd2]
      simp only
      rw [abs_of_nonneg (mul_nonneg (length_nonneg _) hsc), abs_of_nonneg (mul_nonneg (length_nonneg _) hsc)]
      have := mul_le_mul_of_nonneg_right (hall i) hsc
      linarith
    refine ⟨?_, (hplain hrange).1⟩
    rw [hd2]
    simp only
    ext i j
    have e : ((Matrix.of fun a i => if S i ≠ 0 then x.1.X a (σ i) / ((S i : ℝ) : ℝ) else x.1.X a (σ i)).conjTranspose *
        (Matrix.of fun a i => if S i ≠ 0 then x.1.X a (σ i) / ((S i : ℝ) : ℝ) else x.1.X a (σ i)) : Matrix (Fin (n + 1)) (Fin (n + 1)) ℝ) i j = gramElt X i j := by
      rw [Matrix.mul_apply]; rfl
    refine e.trans ?_
    by_cases hij : i = j
    · subst hij
      have hSi : S i ≠ 0 := by
        have : 0 < S 0 * Real.sqrt eps := mul_pos hS0 (Real.sqrt_pos.2 heps)
        exact (lt_of_lt_of_le this (hall i)).ne'
      rw [Matrix.one_apply_eq]
      exact (g2 i).trans (if_neg hSi)
    · rw [Matrix.one_apply_ne hij]; exact g1' i j hij
  · have hd2 := hd.trans he
    change d = ⟨(decomposeQR lo hi hrn X).Q, fun i => copysignR (neg i) (S i) (RCLike.re ((decomposeQR lo hi hrn X).R i i)) * sc,
        Matrix.of fun i j => x.1.V (σ i) j⟩ at hd2
    obtain ⟨q1, q2, q3⟩ := decomposeQR_spec lo hi hlo hh hrn X
    generalize decomposeQR lo hi hrn X = dq at *
    have hdiag := R_diagonal q1 q2 q3 g1' (by
      intro i j hij hz a
      have h1 : S i = 0 := by
        by_contra hne
        have h2 := g2 i
        rw [if_neg hne] at h2
        exact one_ne_zero (h2.symm.trans hz)
      have h2 : length (fun a => x.1.X a (σ j)) = 0 := le_antisymm (le_trans (hs i j hij) (le_of_eq h1)) (length_nonneg _)
      have h3 : x.1.X a (σ j) = 0 := congrFun ((length_eq_zero _).1 h2) a
      simp only [hXd, Matrix.of_apply, h3, zero_div, ite_self])
    refine ⟨by rw [hd2]; exact q1, ?_⟩
    have hcol : ∀ a l, dq.Q a l * dq.R l l = X a l := by
      intro a l
      rw [← q3, Matrix.mul_apply, Finset.sum_eq_single l]
      · intro k _ hk; rw [hdiag k l hk, mul_zero]
      · simp
    -- the sign of `S` is the sign of the diagonal of `R`
    have hsign : ∀ l a, dq.Q a l * copysignR (neg l) (S l) (RCLike.re (dq.R l l)) = X a l * S l := by
      intro l a
      by_cases hz : S l = 0
      · rw [hz]; simp [copysignR]
      · have hR : dq.R l l ^ 2 = 1 := by
          have h2 := (g2 l).trans (if_neg hz)
          have e : gramElt X l l = ∑ k, star (dq.R k l) * dq.R k l := by
            have e2 : X.conjTranspose * X = dq.R.conjTranspose * dq.R := by
              rw [← q3, Matrix.conjTranspose_mul, Matrix.mul_assoc, ← Matrix.mul_assoc dq.Q.conjTranspose, q1, Matrix.one_mul]
            have := congrFun (congrFun e2 l) l
            simpa only [gramElt, Matrix.mul_apply, Matrix.conjTranspose_apply] using this
          rw [Finset.sum_eq_single l] at e
          · have h3 := e.symm.trans h2
            simpa [sq] using h3
          · intro k _ hk; rw [hdiag k l hk, mul_zero]
          · simp
        have hSn : 0 ≤ S l := length_nonneg _
        rw [← hcol a l]
        have hre : (RCLike.re (dq.R l l) : ℝ) = dq.R l l := rfl
        rw [hre]
        rcases (show dq.R l l = 1 ∨ dq.R l l = -1 from by simpa using sq_eq_sq_iff_eq_or_eq_neg.1 (hR.trans (one_pow 2).symm)) with h1 | h1
        all_goals rw [h1]
        · simp [copysignR, abs_of_nonneg hSn]
        · simp [copysignR, abs_of_nonneg hSn]
    ext i j
    rw [Matrix.mul_apply, hX i j, ← hI.eq, ← sorted_mul x.1 σ, Finset.mul_sum]
    apply Finset.sum_congr rfl
    intro l _
    rw [Matrix.mul_diagonal, hd2]
    simp only [Matrix.of_apply]
    have h1 := hsign l i
    have h2 := column_smul x.1.X (σ l) (S l) rfl i
    have h3 : X i l * S l = x.1.X i (σ l) := h2
    rw [h3] at h1
    rw [← mul_assoc (dq.Q i l), h1]
    simp
    ring

/-- The result when the columns of `A` are orthogonal already: no rotation is made. -/
private theorem oneSided_orthogonal (lo hi eps big big' : ℝ) (h0 : 0 < big') (h1 : big' < big) (negS : ℕ → Fin (n + 1) → Fin (n + 1) → Bool)
    (neg : Fin (n + 1) → Bool) (σ : Equiv.Perm (Fin (n + 1))) (hrn : n + 1 ≤ r + 1) (fuel : ℕ) (A : Matrix (Fin (r + 1)) (Fin (n + 1)) 𝕜) (hA : A ≠ 0)
    (horth : ∀ i j, i ≠ j → gramElt A i j = 0) :
    jacobiLoop (oneSweep negS) (fuel + 3) 0 big big' (oneInit A (matScaleElements A)) = some (oneInit A (matScaleElements A), 0) ∧
    svdOneSided lo hi eps big big' negS neg σ hrn (fuel + 3) A =
      some (oneFinish lo hi eps neg σ hrn (matScaleElements A) (oneInit A (matScaleElements A))) := by
  have hsc : matScaleElements A ≠ 0 := fun h => hA ((matScaleElements_eq_zero A).1 h)
  have hX : ∀ i j, i ≠ j → gramElt (oneInit A (matScaleElements A)).X i j = 0 := by
    intro i j hij
    have e : gramElt (oneInit A (matScaleElements A)).X i j = gramElt A i j * (((matScaleElements A)⁻¹ ^ 2 : ℝ) : 𝕜) := by
      simp only [gramElt, oneInit, Matrix.of_apply, div_eq_mul_inv, star_mul', Finset.sum_mul]
      apply Finset.sum_congr rfl
      intro a _
      rw [← RCLike.ofReal_inv, star_ofReal_K]; push_cast; ring
    rw [e, horth i j hij, zero_mul]
  have hsweep : ∀ t, oneSweep negS t (oneInit A (matScaleElements A)) = (oneInit A (matScaleElements A), 0) := by
    intro t
    unfold oneSweep
    refine pairs_inv (fun x : OneState 𝕜 (r + 1) (n + 1) × ℝ => x = (oneInit A (matScaleElements A), 0)) rfl fun p q x hpq hx => ?_
    rw [hx]
    unfold oneStep
    simp only
    rw [hX p q (ne_of_lt hpq), norm_zero, if_neg (by simp)]
  have hl := jacobiLoop_fixed (oneSweep negS) _ hsweep big big' h0 h1 fuel
  refine ⟨hl, ?_⟩
  unfold svdOneSided
  simp only [if_neg hsc, hl, Option.map_some]

/-- C42 fails whenever the code takes its QR branch (some singular value below `√eps` times the largest) and the first component of
`A * conj(V₀)` has a positive real part: the largest singular value comes out negative. -/
theorem C42_one_sided_negative (lo hi eps big big' : ℝ) (hlo : 0 < lo) (hh : lo ≤ hi) (negS : ℕ → Fin (n + 1) → Fin (n + 1) → Bool)
    (neg : Fin (n + 1) → Bool) (σ : Equiv.Perm (Fin (n + 1))) (hrn : n + 1 ≤ r + 1) (fuel : ℕ) (A : Matrix (Fin (r + 1)) (Fin (n + 1)) 𝕜)
    (d : SVD 𝕜 (r + 1) (n + 1) (n + 1)) (h : svdOneSided lo hi eps big big' negS neg σ hrn fuel A = some d)
    (hsmall : ∃ i, |d.S i| < |d.S 0| * Real.sqrt eps) (hpos : 0 < RCLike.re ((A.mulVec fun j => star (d.V 0 j)) 0)) : d.S 0 < 0 := by
  obtain ⟨h0, x, _, hI, _, hd⟩ := oneSided_state h
  have hsc := (le_matScaleElements A).1
  have hX := oneInit_X A (matScaleElements A) h0
  generalize matScaleElements A = sc at *
  have hscp : 0 < sc := lt_of_le_of_ne hsc (Ne.symm h0)
  rcases oneFinish_cases lo hi eps neg σ hrn sc x.1 with ⟨hall, he⟩ | ⟨_, he⟩
  · exfalso
    obtain ⟨i, hi⟩ := hsmall
    rw [hd, he] at hi
    simp only at hi
    rw [abs_of_nonneg (mul_nonneg (length_nonneg _) hsc), abs_of_nonneg (mul_nonneg (length_nonneg _) hsc)] at hi
    have := mul_le_mul_of_nonneg_right (hall i) hsc
    linarith
  · have hd2 := hd.trans he
    clear he
    -- the first component in terms of the rotated columns
    have h2' : x.1.V * x.1.V.conjTranspose = 1 := mul_eq_one_comm.1 hI.unitV
    have hXeq : x.1.X = (oneInit A sc).X * x.1.V.conjTranspose := by
      rw [← hI.eq, Matrix.mul_assoc, h2', Matrix.mul_one]
    have e : ((A.mulVec fun j => star (d.V 0 j)) 0) = ((sc : ℝ) : 𝕜) * x.1.X 0 (σ 0) := by
      rw [hd2]
      simp only [Matrix.mulVec, dotProduct, Matrix.of_apply]
      rw [hXeq, Matrix.mul_apply, Finset.mul_sum]
      apply Finset.sum_congr rfl
      intro j _
      rw [hX 0 j, Matrix.conjTranspose_apply]; ring
    rw [e, RCLike.re_ofReal_mul] at hpos
    have hre : 0 < RCLike.re (x.1.X 0 (σ 0)) := by
      by_contra hc
      exact absurd hpos (not_lt.2 (mul_nonpos_of_nonneg_of_nonpos hsc (not_lt.1 hc)))
    have hne : x.1.X 0 (σ 0) ≠ 0 := by intro hz; rw [hz] at hre; simp at hre
    set S : Fin (n + 1) → ℝ := fun i => length fun a => x.1.X a (σ i) with hS
    have hS0 : 0 < S 0 := by
      refine lt_of_le_of_ne (length_nonneg _) fun hz => hne ?_
      exact congrFun ((length_eq_zero _).1 hz.symm) 0
    set X : Matrix (Fin (r + 1)) (Fin (n + 1)) 𝕜 := Matrix.of fun a i => if S i ≠ 0 then x.1.X a (σ i) / (S i : 𝕜) else x.1.X a (σ i) with hXd
    have hX00 : X 0 0 = (((S 0)⁻¹ : ℝ) : 𝕜) * x.1.X 0 (σ 0) := by
      rw [hXd, Matrix.of_apply, if_pos hS0.ne']; push_cast; rw [div_eq_inv_mul]
    have hreX : 0 < RCLike.re (X 0 0) := by
      rw [hX00, RCLike.re_ofReal_mul]; exact mul_pos (inv_pos.2 hS0) hre
    have hX0 : X 0 0 ≠ 0 := by intro hz; rw [hz] at hreX; simp at hreX
    have hR := decomposeQR_R00 lo hi hlo hh hrn X hX0
    have hlen : 0 < length (fun i => X i 0) := by
      refine lt_of_le_of_ne (length_nonneg _) fun hz => hX0 ?_
      exact congrFun ((length_eq_zero _).1 hz.symm) 0
    have hRre : RCLike.re ((decomposeQR lo hi hrn X).R 0 0) < 0 := by
      have e2 : -(X 0 0 / ((‖X 0 0‖ : ℝ) : 𝕜)) * ((length (fun i => X i 0) : ℝ) : 𝕜) = ((-(‖X 0 0‖⁻¹ * length (fun i => X i 0)) : ℝ) : 𝕜) * X 0 0 := by
        push_cast; rw [div_eq_mul_inv]; ring
      rw [hR, e2, RCLike.re_ofReal_mul, neg_mul, neg_lt_zero]
      exact mul_pos (mul_pos (inv_pos.2 (norm_pos_iff.2 hX0)) hlen) hreX
    have : d.S 0 = copysignR (neg 0) (S 0) (RCLike.re ((decomposeQR lo hi hrn X).R 0 0)) * sc := by rw [hd2]
    rw [this, copysignR, if_pos (Or.inl hRre), abs_of_pos hS0]
    exact mul_neg_of_neg_of_pos (neg_lt_zero.2 hS0) hscp

/-- C42 is violated: the largest singular value of `diag(1, 0)` is negative, in the one-sided algorithm, whatever the parameters. -/
theorem C42_one_sided_violated (lo hi eps big big' : ℝ) (hlo : 0 < lo) (hh : lo ≤ hi) (heps : 0 < eps) (h0 : 0 < big') (h1 : big' < big)
    (negS : ℕ → Fin 2 → Fin 2 → Bool) (neg : Fin 2 → Bool) (fuel : ℕ) :
    SortsColumns (!![1, 0; 0, 0] : Matrix (Fin 2) (Fin 2) ℝ) 1 ∧
    ∃ d, svdOneSided lo hi eps big big' negS neg 1 le_rfl (fuel + 3) (!![1, 0; 0, 0] : Matrix (Fin 2) (Fin 2) ℝ) = some d ∧ d.S 0 < 0 := by
  have hA : (!![1, 0; 0, 0] : Matrix (Fin 2) (Fin 2) ℝ) ≠ 0 := by intro h; simpa using congrFun (congrFun h 0) 0
  have l1 : length (fun a => (!![1, 0; 0, 0] : Matrix (Fin 2) (Fin 2) ℝ) a 1) = 0 := (length_eq_zero _).2 (by funext a; fin_cases a <;> rfl)
  refine ⟨?_, ?_⟩
  · intro i j hij
    simp only [Equiv.Perm.coe_one, id_eq]
    fin_cases i <;> fin_cases j
    · exact le_refl _
    · exact le_trans (le_of_eq l1) (length_nonneg _)
    · exact absurd hij (by decide)
    · exact le_refl _
  · obtain ⟨_, hd⟩ := oneSided_orthogonal lo hi eps big big' h0 h1 negS neg 1 le_rfl fuel _ hA
      (by intro i j hij; simp only [gramElt]; fin_cases i <;> fin_cases j <;> simp_all)
    refine ⟨_, hd, ?_⟩
    have hV : (oneFinish lo hi eps neg 1 le_rfl (matScaleElements (!![1, 0; 0, 0] : Matrix (Fin 2) (Fin 2) ℝ)) (oneInit (!![1, 0; 0, 0] : Matrix (Fin 2) (Fin 2) ℝ) (matScaleElements (!![1, 0; 0, 0] : Matrix (Fin 2) (Fin 2) ℝ)))).V = 1 := by
      rcases oneFinish_cases lo hi eps neg 1 le_rfl (matScaleElements (!![1, 0; 0, 0] : Matrix (Fin 2) (Fin 2) ℝ))
        (oneInit (!![1, 0; 0, 0] : Matrix (Fin 2) (Fin 2) ℝ) (matScaleElements (!![1, 0; 0, 0] : Matrix (Fin 2) (Fin 2) ℝ)))
        with ⟨_, he⟩ | ⟨_, he⟩ <;> rw [he] <;> rfl
    have hS := (C40_one_sided lo hi eps big big' negS neg 1 le_rfl (fuel + 3) _ _ hd).2.2
    refine C42_one_sided_negative lo hi eps big big' hlo hh negS neg 1 le_rfl (fuel + 3) _ _ hd ⟨1, ?_⟩ ?_
    · rw [hS 0, hS 1, hV]
      have e1 : ((!![1, 0; 0, 0] : Matrix (Fin 2) (Fin 2) ℝ).mulVec fun j => star ((1 : Matrix (Fin 2) (Fin 2) ℝ) 1 j)) = 0 := by
        funext i; fin_cases i <;> simp [Matrix.mulVec, dotProduct, Fin.sum_univ_two, Matrix.one_apply]
      have e0 : length ((!![1, 0; 0, 0] : Matrix (Fin 2) (Fin 2) ℝ).mulVec fun j => star ((1 : Matrix (Fin 2) (Fin 2) ℝ) 0 j)) ≠ 0 := by
        intro hz
        have := congrFun ((length_eq_zero _).1 hz) 0
        simp [Matrix.mulVec, dotProduct, Fin.sum_univ_two, Matrix.one_apply] at this
      rw [e1, (length_eq_zero _).2 rfl]
      exact mul_pos (lt_of_le_of_ne (length_nonneg _) (Ne.symm e0)) (Real.sqrt_pos.2 heps)
    · rw [hV]
      simp [Matrix.mulVec, dotProduct, Fin.sum_univ_two, Matrix.one_apply]

/-- C42 is violated: the one-sided algorithm has no result for the zero matrix either. -/
theorem C42_one_sided_zero_violated (lo hi eps big big' : ℝ) (negS : ℕ → Fin (n + 1) → Fin (n + 1) → Bool) (neg : Fin (n + 1) → Bool)
    (σ : Equiv.Perm (Fin (n + 1))) (hrn : n + 1 ≤ r + 1) (fuel : ℕ) :
    svdOneSided lo hi eps big big' negS neg σ hrn fuel (0 : Matrix (Fin (r + 1)) (Fin (n + 1)) 𝕜) = none := by
  unfold svdOneSided
  simp only [if_pos ((matScaleElements_eq_zero (0 : Matrix (Fin (r + 1)) (Fin (n + 1)) 𝕜)).2 rfl)]

/-- The first element of `Q` is real. -/
private theorem decomposeQR_Q00 (lo hi : ℝ) (hlo : 0 < lo) (hh : lo ≤ hi) (hrn : n + 1 ≤ r + 1) (X : Matrix (Fin (r + 1)) (Fin (n + 1)) 𝕜) (hX0 : X 0 0 ≠ 0) :
    (decomposeQR lo hi hrn X).Q 0 0 = ((-(‖X 0 0‖ * (length (fun i => X i 0))⁻¹) : ℝ) : 𝕜) := by
  obtain ⟨q1, q2, q3⟩ := decomposeQR_spec lo hi hlo hh hrn X
  have hR := decomposeQR_R00 lo hi hlo hh hrn X hX0
  have hlen : length (fun i => X i 0) ≠ 0 := fun hz => hX0 (congrFun ((length_eq_zero _).1 hz) 0)
  have h00 : (decomposeQR lo hi hrn X).Q 0 0 * (decomposeQR lo hi hrn X).R 0 0 = X 0 0 := by
    have := congrFun (congrFun q3 0) 0
    rw [Matrix.mul_apply, Finset.sum_eq_single 0] at this
    · exact this
    · intro k _ hk; rw [q2 k 0 (Fin.pos_iff_ne_zero.2 hk), mul_zero]
    · simp
  rw [hR] at h00
  have hn : ((‖X 0 0‖ : ℝ) : 𝕜) ≠ 0 := by exact_mod_cast norm_ne_zero_iff.2 hX0
  have hl : ((length (fun i => X i 0) : ℝ) : 𝕜) ≠ 0 := by exact_mod_cast hlen
  generalize (decomposeQR lo hi hrn X).Q 0 0 = q at *
  rw [RCLike.ofReal_neg, RCLike.ofReal_mul, RCLike.ofReal_inv]
  generalize ((‖X 0 0‖ : ℝ) : 𝕜) = nn, ((length (fun i => X i 0) : ℝ) : 𝕜) = ll at *
  field_simp at h00 ⊢
  linear_combination -h00

/-- C40 is violated for complex matrices of deficient rank: the decomposition of `diag(i, 0)` does not multiply to `diag(i, 0)`, because the sign of
`S` is taken from the real part of a number on the unit circle. -/
theorem C40_one_sided_complex_violated (lo hi eps big big' : ℝ) (hlo : 0 < lo) (hh : lo ≤ hi) (heps : 0 < eps) (h0 : 0 < big') (h1 : big' < big)
    (negS : ℕ → Fin 2 → Fin 2 → Bool) (neg : Fin 2 → Bool) (fuel : ℕ) :
    ∃ d, svdOneSided lo hi eps big big' negS neg 1 le_rfl (fuel + 3) (!![Complex.I, 0; 0, 0] : Matrix (Fin 2) (Fin 2) ℂ) = some d ∧
      ((d.U * Matrix.diagonal (fun i => ((d.S i : ℝ) : ℂ)) * d.V) 0 0).im = 0 := by
  have hA : (!![Complex.I, 0; 0, 0] : Matrix (Fin 2) (Fin 2) ℂ) ≠ 0 := by intro h; simpa using congrFun (congrFun h 0) 0
  obtain ⟨_, hd⟩ := oneSided_orthogonal lo hi eps big big' h0 h1 negS neg 1 le_rfl fuel _ hA
    (by intro i j hij; simp only [gramElt]; fin_cases i <;> fin_cases j <;> simp_all)
  refine ⟨_, hd, ?_⟩
  have hsc0 : matScaleElements (!![Complex.I, 0; 0, 0] : Matrix (Fin 2) (Fin 2) ℂ) ≠ 0 := fun h => hA ((matScaleElements_eq_zero _).1 h)
  have hsc := (le_matScaleElements (!![Complex.I, 0; 0, 0] : Matrix (Fin 2) (Fin 2) ℂ)).1
  clear hd
  generalize matScaleElements (!![Complex.I, 0; 0, 0] : Matrix (Fin 2) (Fin 2) ℂ) = sc at *
  have hscp : 0 < sc := lt_of_le_of_ne hsc (Ne.symm hsc0)
  have hx0 : ∀ a, (oneInit (!![Complex.I, 0; 0, 0] : Matrix (Fin 2) (Fin 2) ℂ) sc).X a 0 = if a = 0 then (sc⁻¹ : ℝ) * Complex.I else 0 := by
    intro a; fin_cases a <;> simp [oneInit, div_eq_inv_mul]
  have hl1 : length (fun a => (oneInit (!![Complex.I, 0; 0, 0] : Matrix (Fin 2) (Fin 2) ℂ) sc).X a 1) = 0 := by
    refine (length_eq_zero _).2 ?_
    funext a; fin_cases a <;> simp [oneInit]
  have hl0 : 0 < length (fun a => (oneInit (!![Complex.I, 0; 0, 0] : Matrix (Fin 2) (Fin 2) ℂ) sc).X a 0) := by
    refine lt_of_le_of_ne (length_nonneg _) fun hz => ?_
    have := congrFun ((length_eq_zero _).1 hz.symm) 0
    simp only [hx0, if_true, Pi.zero_apply] at this
    simp [hsc0] at this
  rcases oneFinish_cases lo hi eps neg 1 le_rfl sc (oneInit (!![Complex.I, 0; 0, 0] : Matrix (Fin 2) (Fin 2) ℂ) sc) with ⟨hall, _⟩ | ⟨_, he⟩
  · exfalso
    have := hall 1
    simp only [Equiv.Perm.coe_one, id_eq] at this
    rw [hl1] at this
    exact absurd this (not_le.2 (mul_pos hl0 (Real.sqrt_pos.2 heps)))
  · obtain ⟨X, S, hX0, he'⟩ : ∃ (X : Matrix (Fin 2) (Fin 2) ℂ) (S : Fin 2 → ℝ), X 0 0 ≠ 0 ∧
        oneFinish lo hi eps neg 1 le_rfl sc (oneInit (!![Complex.I, 0; 0, 0] : Matrix (Fin 2) (Fin 2) ℂ) sc) =
          ⟨(decomposeQR lo hi le_rfl X).Q, S, 1⟩ := by
      refine ⟨_, _, ?_, he⟩
      intro hz
      have h1 := column_smul (oneInit (!![Complex.I, 0; 0, 0] : Matrix (Fin 2) (Fin 2) ℂ) sc).X 0 _ rfl 0
      have h2 := (congrArg (fun z : ℂ => z * ((length fun a => (oneInit (!![Complex.I, 0; 0, 0] : Matrix (Fin 2) (Fin 2) ℂ) sc).X a 0 : ℝ) : ℂ)) hz).symm.trans h1
      simp only [hx0, zero_mul, if_true] at h2
      exact mul_ne_zero (by exact_mod_cast inv_ne_zero hsc0) Complex.I_ne_zero h2.symm
    rw [he']
    simp only
    rw [Matrix.mul_one, Matrix.mul_diagonal, decomposeQR_Q00 lo hi hlo hh le_rfl X hX0]
    simp

/-- C40: with two columns the algorithm always ends after at most three sweeps, the last of them quiet, for every matrix but zero. -/
theorem C40_two_columns (lo hi eps big big' : ℝ) (hbig : 2 * (r + 1) < big') (h1 : big' < big) (negS : ℕ → Fin 2 → Fin 2 → Bool)
    (neg : Fin 2 → Bool) (σ : Equiv.Perm (Fin 2)) (hrn : 2 ≤ r + 1) (fuel : ℕ) (A : Matrix (Fin (r + 1)) (Fin 2) 𝕜) (hA : A ≠ 0) :
    (∃ d, svdOneSided lo hi eps big big' negS neg σ hrn (fuel + 4) A = some d) ∧
    (jacobiLoop (oneSweep negS) (fuel + 4) 0 big big' (oneInit A (matScaleElements A))).map Prod.snd = some 0 := by
  have hsc : matScaleElements A ≠ 0 := fun h => hA ((matScaleElements_eq_zero A).1 h)
  have hscp : 0 < matScaleElements A := lt_of_le_of_ne (le_matScaleElements A).1 (Ne.symm hsc)
  have h0 : 0 < big' := lt_of_le_of_lt (by positivity) hbig
  -- a sweep is one step
  have hsweep : ∀ t (s : OneState 𝕜 (r + 1) 2), oneSweep negS t s = oneStep (negS t 0 1) 0 1 (s, 0) := by
    intro t s
    unfold oneSweep
    rw [forUp_step (by norm_num : 0 < 2), forUp_step (by norm_num : 0 + 1 < 2), forUp_ge (by norm_num)]
    simp only
    rw [forUp_ge (n := 2) (lo := _) (by norm_num), forUp_step (by norm_num : 0 + 1 < 2), forUp_ge (n := 2) (by norm_num)]
    rfl
  have hle : ∀ i j, ‖(oneInit A (matScaleElements A)).X i j‖ ^ 2 ≤ 2 := by
    intro i j
    have h2 : scaleElt (A i j) ≤ matScaleElements A := scaleElt_le_matScale A i j
    have h3 : ‖A i j‖ ^ 2 ≤ 2 * matScaleElements A ^ 2 := by
      rw [norm_sq_re_im]
      have ha : |RCLike.re (A i j)| ≤ matScaleElements A := le_trans (le_max_left _ _) h2
      have hb : |RCLike.im (A i j)| ≤ matScaleElements A := le_trans (le_max_right _ _) h2
      have ha2 := sq_le_sq' (abs_le.1 ha).1 (abs_le.1 ha).2
      have hb2 := sq_le_sq' (abs_le.1 hb).1 (abs_le.1 hb).2
      linarith
    simp only [oneInit, Matrix.of_apply]
    rw [norm_div, RCLike.norm_ofReal, abs_of_pos hscp, div_pow, div_le_iff₀ (by positivity)]
    exact h3
  have hgram : ‖gramElt (oneInit A (matScaleElements A)).X 0 1‖ < big' := by
    refine lt_of_le_of_lt ?_ hbig
    unfold gramElt
    refine (norm_sum_le _ _).trans ?_
    have : ∀ i ∈ Finset.univ, ‖star ((oneInit A (matScaleElements A)).X i 0) * (oneInit A (matScaleElements A)).X i 1‖ ≤ 2 := by
      intro i _
      rw [norm_mul, norm_star]
      nlinarith [hle i 0, hle i 1, sq_nonneg (‖(oneInit A (matScaleElements A)).X i 0‖ - ‖(oneInit A (matScaleElements A)).X i 1‖)]
    refine (Finset.sum_le_sum this).trans ?_
    simp [mul_comm]
  have hloop : ∃ x, jacobiLoop (oneSweep negS) (fuel + 4) 0 big big' (oneInit A (matScaleElements A)) = some (x, 0) := by
    generalize oneInit A (matScaleElements A) = s at *
    by_cases hq : ‖gramElt s.X 0 1‖ ≠ 0
    · have hs0 : oneSweep negS 0 s = (oneRotate (negS 0 0 1) 0 1 s, max 0 ‖gramElt s.X 0 1‖) := by
        rw [hsweep]; unfold oneStep; simp only [if_pos hq]
      have hpos : 0 < ‖gramElt s.X 0 1‖ := lt_of_le_of_ne (norm_nonneg _) (Ne.symm hq)
      rw [max_eq_right hpos.le] at hs0
      obtain ⟨W, _, _, _, hW⟩ := oneRotate_spec (negS 0 0 1) (0 : Fin 2) 1 (by norm_num) s
      have hq2 : ∀ t, oneSweep negS t (oneRotate (negS 0 0 1) 0 1 s) = (oneRotate (negS 0 0 1) 0 1 s, 0) := by
        intro t
        rw [hsweep]
        unfold oneStep
        simp only
        rw [hW, norm_zero, if_neg (by simp)]
      refine ⟨oneRotate (negS 0 0 1) 0 1 s, ?_⟩
      rw [jacobiLoop, if_pos h1]
      simp only [hs0]
      rw [jacobiLoop, if_pos hgram]
      simp only [hq2]
      rw [jacobiLoop, if_pos hpos]
      simp only [hq2]
      rw [jacobiLoop, if_neg (lt_irrefl _)]
    · refine ⟨s, jacobiLoop_fixed _ _ (fun t => ?_) big big' h0 h1 (fuel + 1)⟩
      rw [hsweep]; unfold oneStep; simp only [if_neg hq]
  obtain ⟨x, hx⟩ := hloop
  refine ⟨?_, by rw [hx]; rfl⟩
  unfold svdOneSided
  simp only [if_neg hsc, hx, Option.map_some]
  exact ⟨_, rfl⟩

/-- A permutation that sorts the columns exists, whatever the state. -/
theorem C42_sort_exists (X : Matrix (Fin r) (Fin n) 𝕜) : ∃ σ, SortsColumns X σ := by
  refine ⟨Tuple.sort fun i => -length fun a => X a i, fun i j hij => ?_⟩
  have := Tuple.monotone_sort (fun i => -length fun a => X a i) hij
  simp only [Function.comp_apply, neg_le_neg_iff] at this
  exact this

/-! ## The hypotheses can be met -/

/-- A matrix of full rank and one of deficient rank, neither with orthogonal columns, meet all hypotheses of `C40_one_sided_real_partial`. -/
example (A : Matrix (Fin 3) (Fin 2) ℝ) (_ : A = !![1, 2; 3, 4; 5, 6] ∨ A = !![1, 2; 1, 2; 0, 0]) (hA : A ≠ 0) (negS neg) :
    ∃ σ d, svdOneSided 1 2 (1 / 4) 16 15 negS neg σ (by norm_num) 4 A = some d ∧ d.U.conjTranspose * d.U = 1 ∧ d.U * Matrix.diagonal d.S * d.V = A := by
  obtain ⟨_, hend⟩ := C40_two_columns (r := 2) 1 2 (1 / 4) 16 15 (by norm_num) (by norm_num) negS neg 1 (by norm_num) 0 A hA
  rw [Option.map_eq_some_iff] at hend
  obtain ⟨x, hx, hx0⟩ := hend
  obtain ⟨σ, hσ⟩ := C42_sort_exists x.1.X
  obtain ⟨⟨d, hd⟩, hend⟩ := C40_two_columns (r := 2) 1 2 (1 / 4) 16 15 (by norm_num) (by norm_num) negS neg σ (by norm_num) 0 A hA
  exact ⟨σ, d, hd, C40_one_sided_real_partial 1 2 (1 / 4) 16 15 one_pos (by norm_num) (by norm_num) (by norm_num) negS neg σ (by norm_num) 4 A d hd
    (by intro y hy; rw [hx] at hy; cases hy; exact hσ) hend⟩

end Mathter.Props
