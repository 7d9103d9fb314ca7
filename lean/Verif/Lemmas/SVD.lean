import Verif.Props.SVDKernel
import Verif.Lemmas.QR
import Mathlib.Data.Fin.Embedding
import Mathlib.LinearAlgebra.Matrix.Hermitian

/-! # Lemmas about the Jacobi loops -/

namespace Mathter
universe u
variable {𝕜 : Type u} [RCLike 𝕜] {r n m : ℕ}
open Props (rot2)

/-! ## Plane rotations as matrices -/

/-- The identity with the 2x2 matrix `G` in the rows and columns `p`, `q`. -/
def embed2 (p q : Fin n) (G : Matrix (Fin 2) (Fin 2) 𝕜) : Matrix (Fin n) (Fin n) 𝕜 :=
  Matrix.of fun i j =>
    if i = p then (if j = p then G 0 0 else if j = q then G 0 1 else 0)
    else if i = q then (if j = p then G 1 0 else if j = q then G 1 1 else 0)
    else if i = j then 1 else 0

theorem sum_two {M : Type*} [AddCommMonoid M] (p q : Fin n) (hpq : p ≠ q) (f : Fin n → M) (h : ∀ k, k ≠ p → k ≠ q → f k = 0) :
    ∑ k, f k = f p + f q := by
  rw [← Finset.sum_pair hpq]
  symm
  apply Finset.sum_subset (Finset.subset_univ _)
  intro k _ hk
  simp only [Finset.mem_insert, Finset.mem_singleton, not_or] at hk
  exact h k hk.1 hk.2

theorem mul_embed2 (M : Matrix (Fin r) (Fin n) 𝕜) (p q : Fin n) (hpq : p ≠ q) (G : Matrix (Fin 2) (Fin 2) 𝕜) (i : Fin r) (j : Fin n) :
    (M * embed2 p q G) i j = if j = q then M i p * G 0 1 + M i q * G 1 1 else if j = p then M i p * G 0 0 + M i q * G 1 0 else M i j := by
  rw [Matrix.mul_apply]
  by_cases hq : j = q
  · rw [if_pos hq, sum_two p q hpq]
    · simp [embed2, hq, hpq, Ne.symm hpq]
    · intro k h1 h2; simp [embed2, h1, h2, hq]
  · rw [if_neg hq]
    by_cases hp : j = p
    · rw [if_pos hp, sum_two p q hpq]
      · simp [embed2, hp, Ne.symm hpq]
      · intro k h1 h2; simp [embed2, h1, h2, hp]
    · rw [if_neg hp, Finset.sum_eq_single j]
      · simp [embed2, hp, hq]
      · intro k _ hk
        simp only [embed2, Matrix.of_apply]
        split
        · simp [hp, hq]
        · split
          · simp [hp, hq]
          · simp [hk]
      · simp

theorem embed2_mul (M : Matrix (Fin n) (Fin m) 𝕜) (p q : Fin n) (hpq : p ≠ q) (G : Matrix (Fin 2) (Fin 2) 𝕜) (i : Fin n) (j : Fin m) :
    (embed2 p q G * M) i j = if i = q then G 1 0 * M p j + G 1 1 * M q j else if i = p then G 0 0 * M p j + G 0 1 * M q j else M i j := by
  rw [Matrix.mul_apply]
  by_cases hq : i = q
  · rw [if_pos hq, sum_two p q hpq]
    · simp [embed2, hq, Ne.symm hpq]
    · intro k h1 h2; simp [embed2, h1, h2, hq, Ne.symm hpq]
  · rw [if_neg hq]
    by_cases hp : i = p
    · rw [if_pos hp, sum_two p q hpq]
      · simp [embed2, hp, Ne.symm hpq]
      · intro k h1 h2; simp [embed2, h1, h2, hp]
    · rw [if_neg hp, Finset.sum_eq_single i]
      · simp [embed2, hp, hq]
      · intro k _ hk
        simp [embed2, hp, hq, Ne.symm hk]
      · simp

theorem embed2_mul_embed2 (p q : Fin n) (hpq : p ≠ q) (G H : Matrix (Fin 2) (Fin 2) 𝕜) : embed2 p q G * embed2 p q H = embed2 p q (G * H) := by
  ext i j
  rw [mul_embed2 _ p q hpq]
  simp only [embed2, Matrix.of_apply, Matrix.mul_apply, Fin.sum_univ_two]
  by_cases hj : j = q
  · by_cases hi : i = p
    · simp [hj, hi, Ne.symm hpq]
    · by_cases hi' : i = q
      · simp [hj, hi', Ne.symm hpq]
      · simp [hj, hi, hi']
  · by_cases hj' : j = p
    · by_cases hi : i = p
      · simp [hj', hi, hpq, Ne.symm hpq]
      · by_cases hi' : i = q
        · simp [hj', hi', hpq, Ne.symm hpq]
        · simp [hj', hi, hi', hpq]
    · simp [hj, hj']

theorem embed2_one (p q : Fin n) : embed2 p q (1 : Matrix (Fin 2) (Fin 2) 𝕜) = 1 := by
  ext i j
  simp only [embed2, Matrix.of_apply, Matrix.one_apply]
  by_cases hi : i = p
  · subst hi
    by_cases hj : j = i
    · simp [hj]
    · simp [hj, Ne.symm hj]
  · by_cases hi' : i = q
    · subst hi'
      by_cases hj : j = i
      · subst hj; simp [hi]
      · by_cases hj' : j = p
        · subst hj'; simp [hi]
        · simp [hj, hj', hi, Ne.symm hj]
    · simp [hi, hi']

theorem embed2_conjTranspose (p q : Fin n) (hpq : p ≠ q) (G : Matrix (Fin 2) (Fin 2) 𝕜) : (embed2 p q G).conjTranspose = embed2 p q G.conjTranspose := by
  ext i j
  simp only [Matrix.conjTranspose_apply, embed2, Matrix.of_apply]
  by_cases hi : i = p
  · by_cases hj : j = p
    · simp [hi, hj]
    · by_cases hj' : j = q
      · simp [hi, hj', Ne.symm hpq]
      · simp [hi, hj, hj']
  · by_cases hi' : i = q
    · by_cases hj : j = p
      · simp [hi', hj, Ne.symm hpq]
      · by_cases hj' : j = q
        · simp [hi', hj', Ne.symm hpq]
        · simp [hi', hj, hj', Ne.symm hpq]
    · by_cases hj : j = p
      · simp [hi, hi', hj]
      · by_cases hj' : j = q
        · simp [hi, hi', hj', Ne.symm hpq]
        · by_cases hij : i = j
          · simp [hi, hi', hj, hj', hij]
          · simp [hi, hi', hj, hj', hij, Ne.symm hij]

theorem givensRight_eq (M : Matrix (Fin r) (Fin n) 𝕜) (p q : Fin n) (hpq : p ≠ q) (cv sv det : 𝕜) :
    givensRight M p q cv sv det = M * embed2 p q (rot2 cv sv det) := by
  ext i j
  rw [mul_embed2 _ p q hpq]
  simp only [givensRight, Matrix.of_apply, rot2, Matrix.cons_val', Matrix.cons_val_zero, Matrix.cons_val_one, Matrix.cons_val_fin_one]
  split
  · ring
  · rfl

theorem givensLeft_eq (M : Matrix (Fin n) (Fin m) 𝕜) (p q : Fin n) (hpq : p ≠ q) (cv sv det : 𝕜) :
    givensLeft M p q cv sv det = embed2 p q (rot2 cv sv det) * M := by
  ext i j
  rw [embed2_mul _ p q hpq]
  simp only [givensLeft, Matrix.of_apply, rot2, Matrix.cons_val', Matrix.cons_val_zero, Matrix.cons_val_one, Matrix.cons_val_fin_one]
  split
  · ring
  · split
    · ring
    · rfl

/-- `M` in the rows and columns `p`, `q`. -/
def block2 (M : Matrix (Fin n) (Fin n) 𝕜) (p q : Fin n) : Matrix (Fin 2) (Fin 2) 𝕜 := !![M p p, M p q; M q p, M q q]

theorem block2_mul (M : Matrix (Fin n) (Fin n) 𝕜) (p q : Fin n) (hpq : p ≠ q) (G H : Matrix (Fin 2) (Fin 2) 𝕜) :
    block2 (embed2 p q G * M * embed2 p q H) p q = G * block2 M p q * H := by
  ext i j
  fin_cases i <;> fin_cases j <;>
    simp [block2, mul_embed2 _ p q hpq, embed2_mul _ p q hpq, hpq, Ne.symm hpq, Matrix.mul_apply, Fin.sum_univ_two]

/-! ## The `while` loop -/

theorem jacobiLoop_inv {σ : Type*} {sweep : ℕ → σ → σ × ℝ} (P : σ → Prop) (hs : ∀ t s, P s → P (sweep t s).1) :
    ∀ (fuel t : ℕ) (prev err : ℝ) (s : σ), P s → ∀ x, jacobiLoop sweep fuel t prev err s = some x →
      P x.1 ∧ ((x = (s, err) ∧ ¬ err < prev) ∨ ∃ t' s', P s' ∧ sweep t' s' = x)
  | 0, _, _, _, _, _, x, h => by simp [jacobiLoop] at h
  | fuel + 1, t, prev, err, s, h0, x, h => by
      rw [jacobiLoop] at h
      by_cases hlt : err < prev
      · rw [if_pos hlt] at h
        have := jacobiLoop_inv P hs fuel (t + 1) err (sweep t s).2 (sweep t s).1 (hs t s h0) x h
        refine ⟨this.1, Or.inr ?_⟩
        rcases this.2 with h2 | h2
        · exact ⟨t, s, h0, h2.1.symm ▸ rfl⟩
        · exact h2
      · rw [if_neg hlt] at h
        cases h
        exact ⟨h0, Or.inl ⟨rfl, hlt⟩⟩

/-- If a sweep changes nothing and reports no error the loop ends with the state it began with. -/
theorem jacobiLoop_fixed {σ : Type*} (sweep : ℕ → σ → σ × ℝ) (s : σ) (hs : ∀ t, sweep t s = (s, 0)) (big big' : ℝ) (h0 : 0 < big') (h1 : big' < big)
    (fuel : ℕ) : jacobiLoop sweep (fuel + 3) 0 big big' s = some (s, 0) := by
  rw [jacobiLoop, if_pos h1]
  simp only [hs]
  rw [jacobiLoop, if_pos h0]
  simp only [hs]
  rw [jacobiLoop, if_neg (lt_irrefl _)]

/-- The rule for the loops over the pairs `p < q`. -/
theorem pairs_inv {σ : Type*} {body : Fin n → Fin n → σ → σ} {s : σ} (P : σ → Prop) (h0 : P s)
    (hs : ∀ (p q : Fin n) (s : σ), p < q → P s → P (body p q s)) :
    P (forUp n 0 (fun p s => forUp n (p.val + 1) (fun q s => body p q s) s) s) := by
  refine forUp_inv (fun _ s => P s) (Nat.zero_le _) h0 fun p s _ hp => ?_
  exact forUp_inv (fun _ s => P s) p.isLt hp fun q s hq hp => hs p q s hq hp

/-- The same with a property of the pairs already done. -/
theorem pairs_inv' {σ : Type*} {body : Fin n → Fin n → σ → σ} {s : σ} (P : σ → Prop) (Q : Fin n → Fin n → σ → Prop) (h0 : P s)
    (hs : ∀ (p q : Fin n) (s : σ), p < q → P s → P (body p q s) ∧ Q p q (body p q s))
    (hm : ∀ (p q p' q' : Fin n) (s : σ), p < q → p' < q' → P s → Q p' q' s → Q p' q' (body p q s)) :
    let s' := forUp n 0 (fun p s => forUp n (p.val + 1) (fun q s => body p q s) s) s
    P s' ∧ ∀ p q : Fin n, p < q → Q p q s' := by
  intro s'
  have := forUp_inv (n := n) (lo := 0) (body := fun p s => forUp n (p.val + 1) (fun q s => body p q s) s) (s := s)
    (fun k s => P s ∧ ∀ p q : Fin n, p < q → p.val < k → Q p q s) (Nat.zero_le _) ⟨h0, fun p q _ h => absurd h (Nat.not_lt_zero _)⟩ (by
      intro p s _ hp
      have := forUp_inv (n := n) (lo := p.val + 1) (body := fun q s => body p q s) (s := s)
        (fun k s => P s ∧ (∀ p' q : Fin n, p' < q → p'.val < p.val → Q p' q s) ∧ ∀ q : Fin n, p < q → q.val < k → Q p q s) p.isLt
        ⟨hp.1, hp.2, fun q h1 h2 => absurd h2 (by have : p.val < q.val := h1
                                                  omega)⟩ (by
          intro q s hq hP
          have hpq : p < q := hq
          refine ⟨(hs p q s hpq hP.1).1, fun p' q' h1 h2 => hm p q p' q' s hpq h1 hP.1 (hP.2.1 p' q' h1 h2), fun q' h1 h2 => ?_⟩
          by_cases hqq : q' = q
          · subst hqq; exact (hs p q' s hpq hP.1).2
          · exact hm p q p q' s hpq h1 hP.1 (hP.2.2 q' h1 (by have : q'.val ≠ q.val := fun h => hqq (Fin.ext h)
                                                              omega)))
      refine ⟨this.1, fun p' q h1 h2 => ?_⟩
      by_cases hpp : p' = p
      · subst hpp; exact this.2.2 q h1 q.isLt
      · exact this.2.1 p' q h1 (by have : p'.val ≠ p.val := fun h => hpp (Fin.ext h)
                                   omega))
  exact ⟨this.1, fun p q h => this.2 p q h p.isLt⟩

/-! ## The two-sided step -/

theorem rot2_conjTranspose (c s det : 𝕜) (hd : ‖det‖ = 1) : rot2 (star c) (-star det * s) (star det) = (rot2 c s det).conjTranspose := by
  have hd' : star det * det = 1 := by rw [star_mul_self_K, hd]; simp
  ext i j
  fin_cases i <;> fin_cases j <;> simp [rot2, Matrix.conjTranspose_apply, -RCLike.star_def]
  rw [← mul_assoc, hd', one_mul]

/-- What `rot2` being unitary says about its entries. -/
theorem rot2_norm_det (c s det : 𝕜) (h : (rot2 c s det).conjTranspose * rot2 c s det = 1) : ‖det‖ = 1 ∧ star c * c + star s * s = 1 := by
  have h1 := congrFun (congrFun h 0) 0
  have h2 := congrFun (congrFun h 1) 1
  simp [rot2, Matrix.mul_apply, Fin.sum_univ_two, Matrix.conjTranspose_apply, -RCLike.star_def] at h1 h2
  refine ⟨?_, h1⟩
  have h3 : star det * det = 1 := by linear_combination h2 - (star det * det) * h1
  rw [star_mul_self_K] at h3
  have h4 : ‖det‖ ^ 2 = 1 := by exact_mod_cast h3
  nlinarith [norm_nonneg det]

/-- One rotation of the two-sided algorithm as matrix products. -/
theorem twoRotate_spec (zs : ZeroSigns 𝕜) (p q : Fin r) (hpq : p ≠ q) (s : TwoState 𝕜 r) :
    ∃ (G W : Matrix (Fin 2) (Fin 2) 𝕜) (a b : ℝ), G.conjTranspose * G = 1 ∧ G * G.conjTranspose = 1 ∧ W.conjTranspose * W = 1 ∧
      W * W.conjTranspose = 1 ∧ 0 ≤ a ∧ 0 ≤ b ∧
      (s.X p q = 0 → s.X q q = 0 → s.X q p ≠ 0 → W = 1) ∧
      G.conjTranspose * block2 s.X p q * W.conjTranspose = !![(a : 𝕜), 0; 0, (b : 𝕜)] ∧
      twoRotate zs p q s = ⟨s.U * embed2 p q G, embed2 p q G.conjTranspose * s.X * embed2 p q W.conjTranspose, embed2 p q W * s.V⟩ := by
  have hk := Props.C41_svd zs (block2 s.X p q)
  simp only at hk
  have e00 : block2 s.X p q 0 0 = s.X p p := rfl
  have e01 : block2 s.X p q 0 1 = s.X p q := rfl
  have e10 : block2 s.X p q 1 0 = s.X q p := rfl
  have e11 : block2 s.X p q 1 1 = s.X q q := rfl
  rw [e00, e01, e10, e11] at hk
  have hid : s.X p q = 0 → s.X q q = 0 → s.X q p ≠ 0 → (decomposeSVD2 zs (s.X p p) (s.X p q) (s.X q p) (s.X q q)).cv = 1 ∧
      (decomposeSVD2 zs (s.X p p) (s.X p q) (s.X q p) (s.X q q)).sv = 0 := by
    intro h1 h2 h3
    rw [h1, h2]
    generalize s.X p p = a at *
    generalize s.X q p = b at *
    unfold decomposeSVD2
    have hz : scaleElt (0 : 𝕜) = 0 := (scaleElt_eq_zero _).2 rfl
    have hb : 0 < scaleElt b := lt_of_le_of_ne (scaleElt_nonneg _) (fun h => h3 ((scaleElt_eq_zero _).1 h.symm))
    have hsc : 0 < max (max (scaleElt a) (scaleElt (0 : 𝕜))) (max (scaleElt b) (scaleElt (0 : 𝕜))) :=
      lt_max_of_lt_right (lt_max_of_lt_left hb)
    simp only [if_neg hsc.ne']
    set sc := max (max (scaleElt a) (scaleElt (0 : 𝕜))) (max (scaleElt b) (scaleElt (0 : 𝕜)))
    clear_value sc
    have hscK : ((sc : ℝ) : 𝕜) ≠ 0 := by exact_mod_cast hsc.ne'
    have hb' : b / (sc : 𝕜) ≠ 0 := div_ne_zero h3 hscK
    generalize b / (sc : 𝕜) = y at *
    rw [zero_div]
    have q0 := (decomposeRQ2_spec (a / (sc : 𝕜)) 0 y 0).1
    have hcq : (decomposeRQ2 (a / (sc : 𝕜)) 0 y 0).cq = 0 := by
      unfold decomposeRQ2; simp [hb']
    have hr11 : (decomposeRQ2 (a / (sc : 𝕜)) 0 y 0).r11 = 0 := by
      unfold decomposeRQ2; simp [hb']
    rw [hcq] at q0
    generalize decomposeRQ2 (a / (sc : 𝕜)) 0 y 0 = rq at *
    have hdt : diagonalizeTriangular zs.neg rq.r11 rq.r12 rq.r22 = (1, 0) := by
      unfold diagonalizeTriangular; simp [hr11]
    rw [hdt, hcq]
    simp only [star_zero, zero_mul, mul_zero, add_zero, mul_one] at q0 ⊢
    have hn : ‖rq.sq‖ = 1 := by
      have : ‖rq.sq‖ ^ 2 = 1 := by
        rw [star_mul_self_K] at q0
        have : ((‖rq.sq‖ ^ 2 : ℝ) : 𝕜) = ((1 : ℝ) : 𝕜) := by simpa using q0
        exact_mod_cast this
      nlinarith [norm_nonneg rq.sq]
    have hmin : minimizeRotation (0 : 𝕜) (-rq.sq) = (1, 0) := by
      unfold minimizeRotation
      have : ‖(0 : 𝕜)‖ < ‖-rq.sq‖ := by rw [norm_zero, norm_neg, hn]; norm_num
      simp only [if_pos this]
      rw [norm_neg, hn]
      simp only [star_neg, neg_neg, star_zero, mul_zero, RCLike.ofReal_one, div_one, star_star]
      have : rq.sq * star rq.sq = 1 := by rw [mul_comm]; simpa using q0
      rw [this]
    rw [hmin]; simp
  unfold twoRotate
  generalize decomposeSVD2 zs (s.X p p) (s.X p q) (s.X q p) (s.X q q) = d at *
  obtain ⟨h1, h2, h3, h4, _, _, _, h8⟩ := hk
  obtain ⟨hd, _⟩ := rot2_norm_det _ _ _ h1
  have hG' : rot2 d.cu d.su d.det * (rot2 d.cu d.su d.det).conjTranspose = 1 := mul_eq_one_comm.1 h1
  have hW' : rot2 d.cv d.sv 1 * (rot2 d.cv d.sv 1).conjTranspose = 1 := mul_eq_one_comm.1 h2
  refine ⟨rot2 d.cu d.su d.det, rot2 d.cv d.sv 1, d.s11, d.s22, h1, hG', h2, hW', h3, h4, ?_, ?_, ?_⟩
  · intro a1 a2 a3
    obtain ⟨b1, b2⟩ := hid a1 a2 a3
    rw [b1, b2]
    ext i j
    fin_cases i <;> fin_cases j <;> simp [rot2]
  · rw [← h8]
    have : (rot2 d.cu d.su d.det).conjTranspose * (rot2 d.cu d.su d.det * Matrix.diagonal ![((d.s11 : ℝ) : 𝕜), ((d.s22 : ℝ) : 𝕜)] * rot2 d.cv d.sv 1)
        * (rot2 d.cv d.sv 1).conjTranspose = ((rot2 d.cu d.su d.det).conjTranspose * rot2 d.cu d.su d.det) *
        Matrix.diagonal ![((d.s11 : ℝ) : 𝕜), ((d.s22 : ℝ) : 𝕜)] * (rot2 d.cv d.sv 1 * (rot2 d.cv d.sv 1).conjTranspose) := by
      simp only [Matrix.mul_assoc]
    rw [this, h1, hW', Matrix.one_mul, Matrix.mul_one]
    ext i j
    fin_cases i <;> fin_cases j <;> simp [Matrix.diagonal]
  · have e1 := rot2_conjTranspose d.cv d.sv 1 (by simp)
    simp only [star_one, neg_mul, one_mul] at e1
    simp only
    rw [givensRight_eq _ p q hpq, givensRight_eq _ p q hpq, givensLeft_eq _ p q hpq, givensLeft_eq _ p q hpq, rot2_conjTranspose _ _ _ hd, e1]

/-- Invariant of the two-sided algorithm for the working matrix `B` whose columns from `c` on are zero. -/
structure TwoInv (B : Matrix (Fin r) (Fin r) 𝕜) (c : ℕ) (s : TwoState 𝕜 r) : Prop where
  eq : s.U * s.X * s.V = B
  unitU : s.U.conjTranspose * s.U = 1
  unitV : s.V.conjTranspose * s.V = 1
  cols : ∀ i j : Fin r, c ≤ j.val → s.X i j = 0
  blockV : ∀ i j : Fin r, (c ≤ i.val ∨ c ≤ j.val) → s.V i j = if i = j then 1 else 0
  diag : ∀ i : Fin r, s.X i i = B i i ∨ ∃ a : ℝ, 0 ≤ a ∧ s.X i i = (a : 𝕜)

theorem unitary_mul {U G : Matrix (Fin r) (Fin r) 𝕜} (hU : U.conjTranspose * U = 1) (hG : G.conjTranspose * G = 1) :
    (U * G).conjTranspose * (U * G) = 1 := by
  rw [Matrix.conjTranspose_mul, Matrix.mul_assoc, ← Matrix.mul_assoc U.conjTranspose, hU, Matrix.one_mul, hG]

theorem embed2_unitary (p q : Fin n) (hpq : p ≠ q) (G : Matrix (Fin 2) (Fin 2) 𝕜) (h : G.conjTranspose * G = 1) :
    (embed2 p q G).conjTranspose * embed2 p q G = 1 := by
  rw [embed2_conjTranspose p q hpq, embed2_mul_embed2 p q hpq, h, embed2_one]

theorem TwoInv.rotate {B : Matrix (Fin r) (Fin r) 𝕜} {c : ℕ} {s : TwoState 𝕜 r} (h : TwoInv B c s) (zs : ZeroSigns 𝕜) (p q : Fin r) (hpq : p < q)
    (hne : s.X p q ≠ 0 ∨ s.X q p ≠ 0) : TwoInv B c (twoRotate zs p q s) := by
  have hpq' : p ≠ q := ne_of_lt hpq
  obtain ⟨G, W, a, b, hG, hG', hW, hW', ha, hb, hid, hblk, he⟩ := twoRotate_spec zs p q hpq' s
  rw [he]
  -- either both columns lie below `c`, or the right rotation is the identity
  have hcase : q.val < c ∨ W = 1 := by
    by_cases hq : q.val < c
    · exact Or.inl hq
    · right
      have h1 := h.cols p q (not_lt.1 hq)
      have h2 := h.cols q q (not_lt.1 hq)
      rcases hne with h3 | h3
      · exact absurd h1 h3
      · exact hid h1 h2 h3
  have hpv : p.val < q.val := hpq
  refine ⟨?_, ?_, ?_, ?_, ?_, ?_⟩
  · simp only
    rw [← h.eq]
    have : s.U * embed2 p q G * (embed2 p q G.conjTranspose * s.X * embed2 p q W.conjTranspose) * (embed2 p q W * s.V) =
        s.U * (embed2 p q G * embed2 p q G.conjTranspose) * s.X * (embed2 p q W.conjTranspose * embed2 p q W) * s.V := by
      simp only [Matrix.mul_assoc]
    rw [this, embed2_mul_embed2 p q hpq', embed2_mul_embed2 p q hpq', hG', hW, embed2_one, Matrix.mul_one, Matrix.mul_one]
  · exact unitary_mul h.unitU (embed2_unitary p q hpq' G hG)
  · exact unitary_mul (embed2_unitary p q hpq' W hW) h.unitV
  · intro i j hj
    simp only
    have hz : ∀ i j : Fin r, c ≤ j.val → (embed2 p q G.conjTranspose * s.X) i j = 0 := by
      intro i j hj
      rw [embed2_mul _ p q hpq', h.cols _ _ hj, h.cols _ _ hj, h.cols _ _ hj]; simp
    rcases hcase with hq | hW1
    · rw [mul_embed2 _ p q hpq', if_neg (by rintro rfl; omega), if_neg (by rintro rfl; omega)]
      exact hz i j hj
    · rw [hW1, Matrix.conjTranspose_one, embed2_one, Matrix.mul_one]; exact hz i j hj
  · intro i j hij
    simp only
    rcases hcase with hq | hW1
    · have hpc : p.val < c := lt_trans hpv hq
      rw [embed2_mul _ p q hpq']
      by_cases hi : c ≤ i.val
      · rw [if_neg (by rintro rfl; omega), if_neg (by rintro rfl; omega)]; exact h.blockV i j (Or.inl hi)
      · have hj : c ≤ j.val := hij.resolve_left hi
        have hpj : p ≠ j := by rintro rfl; omega
        have hqj : q ≠ j := by rintro rfl; omega
        rw [h.blockV p j (Or.inr hj), h.blockV q j (Or.inr hj), if_neg hpj, if_neg hqj, h.blockV i j (Or.inr hj)]
        have hij' : i ≠ j := by rintro rfl; omega
        simp [hij']
    · rw [hW1, embed2_one, Matrix.one_mul]; exact h.blockV i j hij
  · intro i
    simp only
    have hb2 := (block2_mul s.X p q hpq' G.conjTranspose W.conjTranspose).trans hblk
    by_cases hp : i = p
    · subst hp
      exact Or.inr ⟨a, ha, congrFun (congrFun hb2 0) 0⟩
    · by_cases hq : i = q
      · subst hq
        exact Or.inr ⟨b, hb, congrFun (congrFun hb2 1) 1⟩
      · rw [mul_embed2 _ p q hpq', if_neg hq, if_neg hp, embed2_mul _ p q hpq', if_neg hq, if_neg hp]
        exact h.diag i

theorem twoStep_ne {tol : ℝ} (h0 : 0 ≤ tol) {x y : 𝕜} (h : max (scaleElt x) (scaleElt y) > tol) : x ≠ 0 ∨ y ≠ 0 := by
  by_contra hc
  push Not at hc
  rw [hc.1, hc.2, (scaleElt_eq_zero (0 : 𝕜)).2 rfl, max_self] at h
  exact absurd h (not_lt.2 h0)

theorem TwoInv.sweep {B : Matrix (Fin r) (Fin r) 𝕜} {c : ℕ} {s : TwoState 𝕜 r} (h : TwoInv B c s) (tol : ℝ) (h0 : 0 ≤ tol)
    (zs : ℕ → Fin r → Fin r → ZeroSigns 𝕜) (t : ℕ) : TwoInv B c (twoSweep tol zs t s).1 := by
  unfold twoSweep
  refine pairs_inv (fun x : TwoState 𝕜 r × ℝ => TwoInv B c x.1) h fun p q x hpq hx => ?_
  unfold twoStep
  simp only
  split
  · rename_i hgt
    exact hx.rotate (zs t p q) p q hpq (twoStep_ne h0 hgt)
  · exact hx

/-- A sweep that reports no error has changed nothing and found every pair within the tolerance. -/
theorem twoSweep_quiet (tol : ℝ) (h0 : 0 ≤ tol) (zs : ℕ → Fin r → Fin r → ZeroSigns 𝕜) (t : ℕ) (s s' : TwoState 𝕜 r)
    (h : twoSweep tol zs t s = (s', 0)) : s' = s ∧ ∀ i j : Fin r, i ≠ j → scaleElt (s'.X i j) ≤ tol := by
  have := pairs_inv' (n := r) (body := fun p q x => twoStep tol (zs t p q) p q x) (s := (s, (0 : ℝ)))
    (fun x => 0 ≤ x.2 ∧ (x.2 = 0 → x.1 = s))
    (fun p q x => x.2 = 0 → max (scaleElt (s.X p q)) (scaleElt (s.X q p)) ≤ tol) ⟨le_refl _, fun _ => rfl⟩
    (by
      rintro p q ⟨x, e⟩ _ ⟨he, hx⟩
      simp only at he hx
      unfold twoStep
      simp only
      split
      · rename_i hgt
        have hpos : 0 < max e (max (scaleElt (x.X p q)) (scaleElt (x.X q p))) := lt_max_of_lt_right (lt_of_le_of_lt h0 hgt)
        exact ⟨⟨hpos.le, fun h => absurd h hpos.ne'⟩, fun h => absurd h hpos.ne'⟩
      · rename_i hgt
        refine ⟨⟨he, hx⟩, fun h => ?_⟩
        rw [hx h] at hgt
        exact not_lt.1 hgt)
    (by
      rintro p q p' q' ⟨x, e⟩ _ _ ⟨he, _⟩ hQ
      simp only at he hQ
      unfold twoStep
      simp only
      split
      · rename_i hgt
        have hpos : 0 < max e (max (scaleElt (x.X p q)) (scaleElt (x.X q p))) := lt_max_of_lt_right (lt_of_le_of_lt h0 hgt)
        exact fun h => absurd h hpos.ne'
      · exact hQ)
  change (fun x : TwoState 𝕜 r × ℝ => 0 ≤ x.2 ∧ (x.2 = 0 → x.1 = s)) (twoSweep tol zs t s) ∧ _ at this
  obtain ⟨h1, h2⟩ := this
  change ∀ p q : Fin r, p < q → (twoSweep tol zs t s).2 = 0 → _ at h2
  rw [h] at h1 h2
  have hs : s' = s := h1.2 rfl
  refine ⟨hs, ?_⟩
  intro i j hij
  rw [hs]
  rcases lt_or_gt_of_ne hij with hlt | hlt
  · exact (le_max_left _ _).trans (h2 i j hlt rfl)
  · exact (le_max_right _ _).trans (h2 j i hlt rfl)

/-! ## The scale of a matrix -/

theorem le_matScaleElements (A : Matrix (Fin r) (Fin (n + 1)) 𝕜) : 0 ≤ matScaleElements A ∧ ∀ i, scaleElements (A i) ≤ matScaleElements A := by
  have := forUp_inv (n := r) (lo := 0) (body := fun i scale => max scale (scaleElements (A i))) (s := (0 : ℝ))
    (fun k x => 0 ≤ x ∧ ∀ i : Fin r, i.val < k → scaleElements (A i) ≤ x) (Nat.zero_le _) ⟨le_refl _, fun i h => absurd h (Nat.not_lt_zero _)⟩
    (by
      intro i x _ hx
      refine ⟨hx.1.trans (le_max_left _ _), fun j hj => ?_⟩
      by_cases hij : j = i
      · rw [hij]; exact le_max_right _ _
      · exact (hx.2 j (by have : j.val ≠ i.val := fun h => hij (Fin.ext h)
                          omega)).trans (le_max_left _ _))
  exact ⟨this.1, fun i => this.2 i i.isLt⟩

theorem matScaleElements_eq_zero (A : Matrix (Fin r) (Fin (n + 1)) 𝕜) : matScaleElements A = 0 ↔ A = 0 := by
  constructor
  · intro h
    have h2 := (le_matScaleElements A).2
    ext i j
    have : A i = 0 := (scaleElements_eq_zero _).1 (le_antisymm (h ▸ h2 i) (scaleElements_nonneg _))
    rw [this]; rfl
  · rintro rfl
    have := forUp_inv (n := r) (lo := 0) (body := fun i scale => max scale (scaleElements ((0 : Matrix (Fin r) (Fin (n + 1)) 𝕜) i))) (s := (0 : ℝ))
      (fun _ x => x = 0) (Nat.zero_le _) rfl
      (by
        intro i x _ hx
        have : scaleElements ((0 : Matrix (Fin r) (Fin (n + 1)) 𝕜) i) = 0 := (scaleElements_eq_zero _).2 rfl
        rw [hx, this, max_self])
    exact this

theorem scaleElt_le_matScale (A : Matrix (Fin r) (Fin (n + 1)) 𝕜) (i : Fin r) (j : Fin (n + 1)) : scaleElt (A i j) ≤ matScaleElements A :=
  (max_le (le_scaleElements (A i) j).1 (le_scaleElements (A i) j).2).trans ((le_matScaleElements A).2 i)

/-! ## Sums over the leading indices -/

theorem sum_castLE {M : Type*} [AddCommMonoid M] (h : n ≤ r) (f : Fin r → M) (hz : ∀ k : Fin r, n ≤ k.val → f k = 0) :
    ∑ k, f k = ∑ k : Fin n, f (Fin.castLE h k) := by
  have : ∑ k : Fin n, f (Fin.castLE h k) = ∑ k ∈ Finset.univ.map (Fin.castLEEmb h), f k := by
    rw [Finset.sum_map]; rfl
  rw [this]
  symm
  apply Finset.sum_subset (Finset.subset_univ _)
  intro k _ hk
  apply hz
  by_contra hlt
  apply hk
  rw [Finset.mem_map]
  exact ⟨⟨k.val, not_le.1 hlt⟩, Finset.mem_univ _, Fin.ext rfl⟩

/-- The sum of the squared magnitudes of the elements. -/
theorem frob_left {U : Matrix (Fin r) (Fin r) 𝕜} (hU : U.conjTranspose * U = 1) (M : Matrix (Fin r) (Fin m) 𝕜) :
    ∑ i, ∑ j, ‖(U * M) i j‖ ^ 2 = ∑ i, ∑ j, ‖M i j‖ ^ 2 := by
  rw [Finset.sum_comm, Finset.sum_comm (f := fun i j => ‖M i j‖ ^ 2)]
  apply Finset.sum_congr rfl
  intro j _
  have h : ∀ N : Matrix (Fin r) (Fin m) 𝕜, (N.conjTranspose * N) j j = ((∑ i, ‖N i j‖ ^ 2 : ℝ) : 𝕜) := by
    intro N
    rw [Matrix.mul_apply]
    push_cast
    exact Finset.sum_congr rfl fun i _ => by rw [Matrix.conjTranspose_apply, star_mul_self_K]; push_cast; rfl
  have h2 : (U * M).conjTranspose * (U * M) = M.conjTranspose * M := by
    rw [Matrix.conjTranspose_mul, Matrix.mul_assoc, ← Matrix.mul_assoc U.conjTranspose, hU, Matrix.one_mul]
  have h3 := h (U * M)
  rw [h2, h M] at h3
  exact_mod_cast h3.symm

theorem frob_right {V : Matrix (Fin m) (Fin m) 𝕜} (hV : V * V.conjTranspose = 1) (M : Matrix (Fin r) (Fin m) 𝕜) :
    ∑ i, ∑ j, ‖(M * V) i j‖ ^ 2 = ∑ i, ∑ j, ‖M i j‖ ^ 2 := by
  apply Finset.sum_congr rfl
  intro i _
  have h : ∀ N : Matrix (Fin r) (Fin m) 𝕜, (N * N.conjTranspose) i i = ((∑ j, ‖N i j‖ ^ 2 : ℝ) : 𝕜) := by
    intro N
    rw [Matrix.mul_apply]
    push_cast
    exact Finset.sum_congr rfl fun j _ => by rw [Matrix.conjTranspose_apply, mul_star_self_K]; push_cast; rfl
  have h2 : (M * V) * (M * V).conjTranspose = M * M.conjTranspose := by
    rw [Matrix.conjTranspose_mul, Matrix.mul_assoc, ← Matrix.mul_assoc V, hV, Matrix.one_mul]
  have h3 := h (M * V)
  rw [h2, h M] at h3
  exact_mod_cast h3.symm

end Mathter
