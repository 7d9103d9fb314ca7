import Verif.Lemmas.SVD

/-! # Lemmas about the one-sided Jacobi loop and the QR decomposition after it -/

namespace Mathter
universe u
variable {𝕜 : Type u} [RCLike 𝕜] {r n m : ℕ}
open Props (rot2)

/-! ## The step -/

/-- The inner product of two rotated columns in terms of the inner products of the columns. -/
def gramOrth (g : 𝕜) (z : ℝ) (c s : 𝕜) : 𝕜 := star c ^ 2 * g - star s ^ 2 * star g + star c * star s * (z : 𝕜)

theorem gramOrth_minimize (g : 𝕜) (z : ℝ) (c s : 𝕜) (h : gramOrth g z c s = 0) :
    gramOrth g z (minimizeRotation c s).1 (minimizeRotation c s).2 = 0 := by
  have hphase : ∀ q c s : 𝕜, gramOrth g z (q * c) (q * s) = star q ^ 2 * gramOrth g z c s := by
    intro q c s; simp only [gramOrth, star_mul']; ring
  have hswap : ∀ c s : 𝕜, gramOrth g z (-star s) (star c) = -star (gramOrth g z c s) := by
    intro c s
    simp only [gramOrth, star_add, star_sub, star_mul', star_neg, star_star, star_pow, star_ofReal_K]; ring
  unfold minimizeRotation
  simp only
  rw [hphase]
  split
  · simp only; rw [hswap, h]; simp
  · simp only; rw [h]; simp

theorem star_gramElt (X : Matrix (Fin r) (Fin n) 𝕜) (p q : Fin n) : star (gramElt X p q) = gramElt X q p := by
  simp only [gramElt, star_sum, star_mul', star_star]
  exact Finset.sum_congr rfl fun i _ => mul_comm _ _

theorem gramElt_self (X : Matrix (Fin r) (Fin n) 𝕜) (p : Fin n) : gramElt X p p = ((RCLike.re (gramElt X p p) : ℝ) : 𝕜) := by
  have : gramElt X p p = ((∑ i, ‖X i p‖ ^ 2 : ℝ) : 𝕜) := by
    simp only [gramElt, star_mul_self_K]; push_cast; rfl
  rw [this, RCLike.ofReal_re]

/-- One rotation of the one-sided algorithm: a unitary change of the columns undone in `V`, after which the pair is orthogonal. -/
theorem oneRotate_spec (neg : Bool) (p q : Fin n) (hpq : p ≠ q) (s : OneState 𝕜 r n) :
    ∃ W : Matrix (Fin 2) (Fin 2) 𝕜, W.conjTranspose * W = 1 ∧ W * W.conjTranspose = 1 ∧
      oneRotate neg p q s = ⟨s.X * embed2 p q W, embed2 p q W.conjTranspose * s.V⟩ ∧ gramElt (oneRotate neg p q s).X p q = 0 := by
  obtain ⟨h1, h2⟩ := diagonalizeHermitian_spec neg (RCLike.re (gramElt s.X p p)) (gramElt s.X p q) (RCLike.re (gramElt s.X q q))
  unfold oneRotate
  simp only
  generalize diagonalizeHermitian neg (RCLike.re (gramElt s.X p p)) (gramElt s.X p q) (RCLike.re (gramElt s.X q q)) = v0 at *
  obtain ⟨m1, m2, _, _⟩ := minimizeRotation_spec v0.1 v0.2 h1
  have m5 := gramOrth_minimize _ _ _ _ h2
  generalize minimizeRotation v0.1 v0.2 = v at *
  have hu := Props.rot2_unitary v.1 v.2 1 m1 (by simp)
  refine ⟨rot2 v.1 v.2 1, hu, mul_eq_one_comm.1 hu, ?_, ?_⟩
  · rw [givensRight_eq _ p q hpq, givensLeft_eq _ p q hpq]
    have e := rot2_conjTranspose v.1 v.2 1 (by simp)
    have hr : star v.1 = v.1 := by rw [m2, star_ofReal_K]
    rw [hr] at e
    simp only [star_one, neg_mul, one_mul] at e
    rw [e]
  · rw [← m5]
    have e1 : ∀ i, givensRight s.X p q v.1 v.2 1 i p = s.X i p * v.1 + s.X i q * v.2 := by
      intro i; simp [givensRight, hpq]
    have e2 : ∀ i, givensRight s.X p q v.1 v.2 1 i q = s.X i q * star v.1 - s.X i p * star v.2 := by
      intro i; simp [givensRight]
    have hz : ((RCLike.re (gramElt s.X q q) - RCLike.re (gramElt s.X p p) : ℝ) : 𝕜) = gramElt s.X q q - gramElt s.X p p := by
      rw [gramElt_self s.X q, gramElt_self s.X p]; push_cast; simp
    rw [gramOrth, hz, star_gramElt]
    simp only [gramElt, e1, e2, star_add, star_mul']
    rw [Finset.mul_sum, Finset.mul_sum, mul_sub, Finset.mul_sum, Finset.mul_sum, ← Finset.sum_sub_distrib, ← Finset.sum_sub_distrib,
      ← Finset.sum_add_distrib]
    exact Finset.sum_congr rfl fun i _ => by ring

/-- Invariant of the one-sided algorithm. -/
structure OneInv (B : Matrix (Fin r) (Fin n) 𝕜) (s : OneState 𝕜 r n) : Prop where
  eq : s.X * s.V = B
  unitV : s.V.conjTranspose * s.V = 1

theorem OneInv.rotate {B : Matrix (Fin r) (Fin n) 𝕜} {s : OneState 𝕜 r n} (h : OneInv B s) (neg : Bool) (p q : Fin n) (hpq : p ≠ q) :
    OneInv B (oneRotate neg p q s) := by
  obtain ⟨W, h1, h2, h3, _⟩ := oneRotate_spec neg p q hpq s
  rw [h3]
  refine ⟨?_, ?_⟩
  · simp only
    have : s.X * embed2 p q W * (embed2 p q W.conjTranspose * s.V) = s.X * (embed2 p q W * embed2 p q W.conjTranspose) * s.V := by
      simp only [Matrix.mul_assoc]
    rw [this, embed2_mul_embed2 p q hpq, h2, embed2_one, Matrix.mul_one, h.eq]
  · refine unitary_mul (embed2_unitary p q hpq W.conjTranspose ?_) h.unitV
    rw [Matrix.conjTranspose_conjTranspose]; exact h2

theorem OneInv.sweep {B : Matrix (Fin r) (Fin n) 𝕜} {s : OneState 𝕜 r n} (h : OneInv B s) (neg : ℕ → Fin n → Fin n → Bool) (t : ℕ) :
    OneInv B (oneSweep neg t s).1 := by
  unfold oneSweep
  refine pairs_inv (fun x : OneState 𝕜 r n × ℝ => OneInv B x.1) h fun p q x hpq hx => ?_
  unfold oneStep
  simp only
  split
  · exact hx.rotate (neg t p q) p q (ne_of_lt hpq)
  · exact hx

/-- A sweep that reports no error has changed nothing and found every pair of columns orthogonal. -/
theorem oneSweep_quiet (neg : ℕ → Fin n → Fin n → Bool) (t : ℕ) (s s' : OneState 𝕜 r n) (h : oneSweep neg t s = (s', 0)) :
    s' = s ∧ ∀ i j : Fin n, i ≠ j → gramElt s'.X i j = 0 := by
  have := pairs_inv' (n := n) (body := fun p q x => oneStep (neg t p q) p q x) (s := (s, (0 : ℝ)))
    (fun x => 0 ≤ x.2 ∧ (x.2 = 0 → x.1 = s))
    (fun p q x => x.2 = 0 → gramElt s.X p q = 0) ⟨le_refl _, fun _ => rfl⟩
    (by
      rintro p q ⟨x, e⟩ _ ⟨he, hx⟩
      simp only at he hx
      unfold oneStep
      simp only
      split
      · rename_i hgt
        have hpos : 0 < max e ‖gramElt x.X p q‖ := lt_max_of_lt_right (lt_of_le_of_ne (norm_nonneg _) (Ne.symm hgt))
        exact ⟨⟨hpos.le, fun h => absurd h hpos.ne'⟩, fun h => absurd h hpos.ne'⟩
      · rename_i hgt
        refine ⟨⟨he, hx⟩, fun h => ?_⟩
        rw [hx h] at hgt
        simpa using hgt)
    (by
      rintro p q p' q' ⟨x, e⟩ _ _ ⟨he, _⟩ hQ
      simp only at he hQ
      unfold oneStep
      simp only
      split
      · rename_i hgt
        have hpos : 0 < max e ‖gramElt x.X p q‖ := lt_max_of_lt_right (lt_of_le_of_ne (norm_nonneg _) (Ne.symm hgt))
        exact fun h => absurd h hpos.ne'
      · exact hQ)
  change (fun x : OneState 𝕜 r n × ℝ => 0 ≤ x.2 ∧ (x.2 = 0 → x.1 = s)) (oneSweep neg t s) ∧ _ at this
  obtain ⟨h1, h2⟩ := this
  change ∀ p q : Fin n, p < q → (oneSweep neg t s).2 = 0 → _ at h2
  rw [h] at h1 h2
  have hs : s' = s := h1.2 rfl
  refine ⟨hs, ?_⟩
  intro i j hij
  rw [hs]
  rcases lt_or_gt_of_ne hij with hlt | hlt
  · exact h2 i j hlt rfl
  · rw [← star_gramElt, h2 j i hlt rfl, star_zero]

/-! ## The QR decomposition of orthogonal columns -/

/-- The QR decomposition of a matrix with orthogonal columns, once one is zero all zero, has a diagonal `R`. -/
theorem R_diagonal {X Q : Matrix (Fin r) (Fin n) 𝕜} {R : Matrix (Fin n) (Fin n) 𝕜} (hQ : Q.conjTranspose * Q = 1)
    (hR : ∀ i j, j < i → R i j = 0) (h : Q * R = X) (horth : ∀ i j, i ≠ j → gramElt X i j = 0)
    (hzero : ∀ i j, i ≤ j → gramElt X i i = 0 → ∀ a, X a j = 0) : ∀ i j, i ≠ j → R i j = 0 := by
  have hgram : ∀ i j, gramElt X i j = ∑ k, star (R k i) * R k j := by
    intro i j
    have e : X.conjTranspose * X = R.conjTranspose * R := by
      rw [← h, Matrix.conjTranspose_mul, Matrix.mul_assoc, ← Matrix.mul_assoc Q.conjTranspose, hQ, Matrix.one_mul]
    have := congrFun (congrFun e i) j
    simpa only [gramElt, Matrix.mul_apply, Matrix.conjTranspose_apply] using this
  have hRX : R = Q.conjTranspose * X := by rw [← h, ← Matrix.mul_assoc, hQ, Matrix.one_mul]
  have key : ∀ m : ℕ, ∀ i : Fin n, i.val = m → ∀ j, i < j → R i j = 0 := by
    intro m
    induction m using Nat.strong_induction_on with
    | _ m ih =>
      intro i him j hij
      by_cases h0 : gramElt X i i = 0
      · rw [hRX, Matrix.mul_apply, Finset.sum_eq_zero]
        intro a _
        rw [hzero i j hij.le h0 a, mul_zero]
      · have hcol : ∀ k, k ≠ i → R k i = 0 := by
          intro k hk
          rcases lt_or_gt_of_ne hk with hlt | hlt
          · exact ih k.val (by rw [← him]; exact hlt) k rfl i hlt
          · exact hR k i hlt
        have e1 : gramElt X i i = star (R i i) * R i i := by
          rw [hgram, Finset.sum_eq_single i]
          · intro k _ hk; rw [hcol k hk]; simp
          · simp
        have e2 : gramElt X i j = star (R i i) * R i j := by
          rw [hgram, Finset.sum_eq_single i]
          · intro k _ hk; rw [hcol k hk]; simp
          · simp
        rw [horth i j (ne_of_lt hij)] at e2
        rcases mul_eq_zero.1 e2.symm with h3 | h3
        · exact absurd (by rw [e1, h3, zero_mul]) h0
        · exact h3
  intro i j hij
  rcases lt_or_gt_of_ne hij with hlt | hlt
  · exact key i.val i rfl j hlt
  · exact hR i j hlt

/-- The first element a Householder reflection produces has the phase opposite to the pivot. -/
theorem householderOf_pivot (lo hi : ℝ) (hlo : 0 < lo) (hh : lo ≤ hi) (k : Fin (r + 1)) (x : Fin (r + 1) → 𝕜) (hx : x k ≠ 0) :
    x k - 2 * householderOf lo hi k x k * ∑ q, star (householderOf lo hi k x q) * x q = -(x k / ((‖x k‖ : ℝ) : 𝕜)) * ((length x : ℝ) : 𝕜) := by
  unfold householderOf
  simp only [Props.C14_length_precise lo hi hlo hh]
  have hn : ‖x k‖ ≠ 0 := norm_ne_zero_iff.2 hx
  have hnK : ((‖x k‖ : ℝ) : 𝕜) ≠ 0 := by exact_mod_cast hn
  rw [if_pos hn]
  set sg : 𝕜 := -(x k / ((‖x k‖ : ℝ) : 𝕜)) with hsg
  set u : Fin (r + 1) → 𝕜 := fun i => if i = k then x i - sg * ((length x : ℝ) : 𝕜) else x i with hu
  have hs1 : star sg * sg = 1 := by
    rw [hsg, star_mul_self_K, norm_neg, norm_div, RCLike.norm_ofReal, abs_norm, div_self hn]; simp
  have hs2 : star (x k) * (sg * ((length x : ℝ) : 𝕜)) = star (sg * ((length x : ℝ) : 𝕜)) * x k := by
    rw [hsg, star_mul', star_neg, star_div₀, star_ofReal_K, star_ofReal_K]; ring
  have hlen : star (sg * ((length x : ℝ) : 𝕜)) * (sg * ((length x : ℝ) : 𝕜)) = ∑ q, star (x q) * x q := by
    rw [sum_star_self, star_mul', star_ofReal_K]
    push_cast
    linear_combination (((length x : ℝ) : 𝕜) ^ 2) * hs1
  have hcore := hh_core x k (sg * ((length x : ℝ) : 𝕜)) hlen hs2 u (fun i => rfl)
  have huk : u k = x k - sg * ((length x : ℝ) : 𝕜) := by simp only [hu, if_true]
  have hne : u k ≠ 0 := by
    rw [huk, hsg]
    have e : x k - -(x k / ((‖x k‖ : ℝ) : 𝕜)) * ((length x : ℝ) : 𝕜) = x k * (((‖x k‖ + length x) / ‖x k‖ : ℝ) : 𝕜) := by
      push_cast; field_simp; ring
    rw [e]
    refine mul_ne_zero hx ?_
    have : (‖x k‖ + length x) / ‖x k‖ ≠ 0 := by
      have h1 : 0 < ‖x k‖ := norm_pos_iff.2 hx
      have h2 := length_nonneg x
      positivity
    exact_mod_cast this
  clear_value u
  have hU : length u ≠ 0 := fun h => hne (by rw [(length_eq_zero u).1 h]; rfl)
  simp only [hU, if_true, ne_eq, not_false_eq_true]
  have hU' : ((length u : ℝ) : 𝕜) ≠ 0 := by exact_mod_cast hU
  rw [sum_star_self] at hcore
  have hsum : ∑ q, star (divReal u (length u) q) * x q = (∑ q, star (u q) * x q) / ((length u : ℝ) : 𝕜) := by
    rw [Finset.sum_div]
    apply Finset.sum_congr rfl
    intro q _
    simp only [divReal, star_div₀]
    rw [star_ofReal_K]; ring
  rw [hsum]
  simp only [divReal]
  push_cast at hcore
  have e2 : 2 * (u k / ((length u : ℝ) : 𝕜)) * ((∑ q, star (u q) * x q) / ((length u : ℝ) : 𝕜)) = u k := by
    field_simp
    linear_combination (-1 : 𝕜) * hcore
  rw [e2, huk]; ring

/-- The first element of `R` has the phase opposite to the first element of the matrix. -/
theorem decomposeQR_R00 (lo hi : ℝ) (hlo : 0 < lo) (hh : lo ≤ hi) (hrn : n + 1 ≤ r + 1) (A : Matrix (Fin (r + 1)) (Fin (n + 1)) 𝕜) (h0 : A 0 0 ≠ 0) :
    (decomposeQR lo hi hrn A).R 0 0 = -(A 0 0 / ((‖A 0 0‖ : ℝ) : 𝕜)) * ((length (fun i => A i 0) : ℝ) : 𝕜) := by
  unfold decomposeQR
  simp only
  have hsc := scaler_pos lo hlo (matScaleElements A)
  set sc : ℝ := max lo (matScaleElements A) with hscdef
  clear_value sc
  have hsc' : ((sc : ℝ) : 𝕜) ≠ 0 := by exact_mod_cast hsc.ne'
  have hI := qr_inv lo hi hlo hh hrn (Matrix.of fun i j => A i j / (sc : 𝕜))
  have hx : (A 0 0 / (sc : 𝕜)) ≠ 0 := div_ne_zero h0 hsc'
  have hpiv := householderOf_pivot lo hi hlo hh (0 : Fin (r + 1)) (fun i => A i 0 / (sc : 𝕜)) hx
  have hrow : (forUp (n + 1) 0 (qrStep lo hi hrn) (⟨Matrix.of fun i j => A i j / (sc : 𝕜), 1⟩ : QRState 𝕜 (r + 1) (n + 1))).R 0 0 =
      -((A 0 0 / (sc : 𝕜)) / ((‖A 0 0 / (sc : 𝕜)‖ : ℝ) : 𝕜)) * ((length (fun i => A i 0 / (sc : 𝕜)) : ℝ) : 𝕜) := by
    rw [forUp_step (by omega : 0 < n + 1)]
    refine forUp_inv (n := n + 1) (lo := 0 + 1) (body := qrStep lo hi hrn) (fun _ s => s.R 0 0 = _) (by omega) ?_ ?_
    · rw [← hpiv]
      simp only [qrStep, reflect, Matrix.of_apply, householder]
      rfl
    · intro k s hk hs
      obtain ⟨_, hz, _⟩ := householder_spec lo hi hlo hh hrn s.R k
      simp only [qrStep, reflect, Matrix.of_apply]
      rw [hz 0 (show (0 : ℕ) < k.val by omega), hs]; ring
  set s := forUp (n + 1) 0 (qrStep lo hi hrn) (⟨Matrix.of fun i j => A i j / (sc : 𝕜), 1⟩ : QRState 𝕜 (r + 1) (n + 1)) with hs
  clear_value s
  rw [zeroLower_id hrn s.R fun i j hij => hI.low i j j.isLt hij]
  simp only [Matrix.of_apply]
  have e0 : Fin.castLE hrn (0 : Fin (n + 1)) = 0 := rfl
  rw [e0, hrow]
  have hl : length (fun i => A i 0 / (sc : 𝕜)) = length (fun i => A i 0) / sc := by
    have := length_smul (((sc⁻¹ : ℝ) : 𝕜)) (fun i => A i 0)
    have e : (fun i => A i 0 / (sc : 𝕜)) = fun i => (((sc⁻¹ : ℝ) : 𝕜)) * A i 0 := by
      funext i; push_cast; rw [div_eq_inv_mul]
    rw [e]
    refine Eq.trans this ?_
    rw [RCLike.norm_ofReal, abs_of_pos (inv_pos.2 hsc), div_eq_inv_mul]
  rw [hl, norm_div, RCLike.norm_ofReal, abs_of_pos hsc]
  have hn : ((‖A 0 0‖ : ℝ) : 𝕜) ≠ 0 := by exact_mod_cast norm_ne_zero_iff.2 h0
  push_cast
  field_simp

end Mathter
