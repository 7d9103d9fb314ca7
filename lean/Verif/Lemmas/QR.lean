import Mathlib.LinearAlgebra.Matrix.ConjTranspose
import Verif.Model.QR
import Verif.Lemmas.VectorMath
import Verif.Lemmas.LinearSolve
import Verif.Props.VectorMath

/-! # Lemmas about the Householder loop -/

namespace Mathter
universe u
variable {𝕜 : Type u} [RCLike 𝕜] {r n m : ℕ}

theorem hh_core (x : Fin n → 𝕜) (k : Fin n) (α : 𝕜) (h1 : star α * α = ∑ q, star (x q) * x q) (h2 : star (x k) * α = star α * x k)
    (u : Fin n → 𝕜) (hu : ∀ i, u i = if i = k then x i - α else x i) : ∑ q, star (u q) * u q = 2 * ∑ q, star (u q) * x q := by
  have hu' : ∀ i, u i = x i - (if i = k then α else 0) := by
    intro i; rw [hu]; split <;> simp
  have e1 : ∀ q, star (u q) * u q = star (x q) * x q - (if q = k then star (x k) * α else 0) - (if q = k then star α * x k else 0)
      + (if q = k then star α * α else 0) := by
    intro q
    rw [hu']
    by_cases h : q = k
    · subst h; simp only [if_true, star_sub]; ring
    · simp [h]
  have e2 : ∀ q, star (u q) * x q = star (x q) * x q - (if q = k then star α * x k else 0) := by
    intro q
    rw [hu']
    by_cases h : q = k
    · subst h; simp only [if_true, star_sub]; ring
    · simp [h]
  simp only [e1, e2, Finset.sum_add_distrib, Finset.sum_sub_distrib, Finset.sum_ite_eq', Finset.mem_univ, if_true]
  rw [← h1, h2]; ring

theorem sum_star_self (v : Fin n → 𝕜) : ∑ q, star (v q) * v q = ((length v ^ 2 : ℝ) : 𝕜) := by
  rw [← dot_self, dot_eq_sum]
  exact Finset.sum_congr rfl fun q _ => mul_comm _ _

/-- What the reflection vector does. -/
theorem householderOf_spec (lo hi : ℝ) (hlo : 0 < lo) (hh : lo ≤ hi) (k : Fin (r + 1)) (x : Fin (r + 1) → 𝕜) :
    (∑ q, star (householderOf lo hi k x q) * householderOf lo hi k x q = 1) ∧
    (∀ i, i ≠ k → x i = 0 → householderOf lo hi k x i = 0) ∧
    (∀ i, i ≠ k → x i - 2 * householderOf lo hi k x i * ∑ q, star (householderOf lo hi k x q) * x q = 0) := by
  unfold householderOf
  simp only [Props.C14_length_precise lo hi hlo hh]
  set sg : 𝕜 := if ‖x k‖ ≠ 0 then -(x k / ((‖x k‖ : ℝ) : 𝕜)) else 1 with hsg
  set u : Fin (r + 1) → 𝕜 := fun i => if i = k then x i - sg * ((length x : ℝ) : 𝕜) else x i with hu
  have hs1 : star sg * sg = 1 := by
    rw [hsg]
    split
    · rename_i h
      have h' : ((‖x k‖ : ℝ) : 𝕜) ≠ 0 := by exact_mod_cast h
      rw [star_neg, star_div₀, neg_mul_neg, div_mul_div_comm, RCLike.star_def, RCLike.conj_mul, RCLike.conj_ofReal]
      rw [← sq]; exact div_self (pow_ne_zero 2 h')
    · simp
  have hs2 : star (x k) * (sg * ((length x : ℝ) : 𝕜)) = star (sg * ((length x : ℝ) : 𝕜)) * x k := by
    rw [hsg]
    split
    · rw [star_mul', star_neg, star_div₀, RCLike.star_def, RCLike.conj_ofReal, RCLike.conj_ofReal]; ring
    · rename_i h
      have : x k = 0 := by simpa using h
      simp [this]
  have hlen : star (sg * ((length x : ℝ) : 𝕜)) * (sg * ((length x : ℝ) : 𝕜)) = ∑ q, star (x q) * x q := by
    rw [sum_star_self, star_mul', RCLike.star_def, RCLike.conj_ofReal]
    push_cast
    rw [← RCLike.star_def]
    linear_combination (((length x : ℝ) : 𝕜) ^ 2) * hs1
  have hcore := hh_core x k (sg * ((length x : ℝ) : 𝕜)) hlen hs2 u (fun i => rfl)
  have hux : ∀ i, i ≠ k → u i = x i := by
    intro i hi; simp only [hu, hi, if_false]
  clear_value u
  by_cases hU : length u ≠ 0
  · simp only [hU, if_true, ne_eq, not_false_eq_true]
    have hU' : ((length u : ℝ) : 𝕜) ≠ 0 := by exact_mod_cast hU
    rw [sum_star_self] at hcore
    refine ⟨?_, ?_, ?_⟩
    · have : ∀ q, star (divReal u (length u) q) * divReal u (length u) q = star (u q) * u q / ((length u : ℝ) : 𝕜) ^ 2 := by
        intro q
        simp only [divReal, star_div₀]
        rw [RCLike.star_def, RCLike.conj_ofReal]; field_simp
      simp only [this, ← Finset.sum_div, sum_star_self]
      push_cast
      exact div_self (pow_ne_zero 2 hU')
    · intro i hi h0; simp [divReal, hux i hi, h0]
    · intro i hi
      have hsum : ∑ q, star (divReal u (length u) q) * x q = (∑ q, star (u q) * x q) / ((length u : ℝ) : 𝕜) := by
        rw [Finset.sum_div]
        apply Finset.sum_congr rfl
        intro q _
        simp only [divReal, star_div₀]
        rw [RCLike.star_def, RCLike.conj_ofReal]; ring
      rw [hsum]
      simp only [divReal, hux i hi]
      push_cast at hcore
      field_simp
      linear_combination (x i) * hcore
  · have h0 : u = 0 := (length_eq_zero u).1 (not_not.1 hU)
    simp only [hU, if_false]
    have hx0 : ∀ i, i ≠ k → x i = 0 := fun i hi => by rw [← hux i hi, h0]; rfl
    refine ⟨?_, ?_, ?_⟩
    · rw [Finset.sum_eq_single k]
      · simp
      · intro q _ hq; simp [hq, hx0 q hq]
      · simp
    · intro i hi _; simp [hi, hx0 i hi]
    · intro i hi; simp [hi, hx0 i hi]

theorem householder_spec (lo hi : ℝ) (hlo : 0 < lo) (hh : lo ≤ hi) (hrn : n ≤ r + 1) (R : Matrix (Fin (r + 1)) (Fin n) 𝕜) (k : Fin n) :
    (∑ q, star (householder lo hi hrn R k q) * householder lo hi hrn R k q = 1) ∧
    (∀ i : Fin (r + 1), i.val < k.val → householder lo hi hrn R k i = 0) ∧
    (∀ i : Fin (r + 1), k.val < i.val → reflect (householder lo hi hrn R k) R i k = 0) := by
  obtain ⟨h1, h2, h3⟩ := householderOf_spec lo hi hlo hh (Fin.castLE hrn k) (fun i => if i.val < k.val then 0 else R i k)
  change (∑ q, star (householder lo hi hrn R k q) * householder lo hi hrn R k q = 1) at h1
  change (∀ i, i ≠ Fin.castLE hrn k → _ → householder lo hi hrn R k i = 0) at h2
  change (∀ i, i ≠ Fin.castLE hrn k → _ - 2 * householder lo hi hrn R k i * ∑ q, star (householder lo hi hrn R k q) * _ = 0) at h3
  set v := householder lo hi hrn R k with hv
  clear_value v
  have hz : ∀ i : Fin (r + 1), i.val < k.val → v i = 0 := by
    intro i hi
    exact h2 i (by rintro rfl; simp at hi) (by simp [hi])
  refine ⟨h1, hz, ?_⟩
  intro i hi
  have := h3 i (by rintro rfl; simp at hi)
  rw [if_neg (by omega)] at this
  simp only [reflect, Matrix.of_apply]
  rw [← this]
  congr 2
  apply Finset.sum_congr rfl
  intro q _
  by_cases hq : q.val < k.val
  · simp [hz q hq]
  · simp [hq]

/-- The reflection as a matrix. -/
theorem reflect_eq_mul (v : Fin r → 𝕜) (M : Matrix (Fin r) (Fin m) 𝕜) : reflect v M = reflect v 1 * M := by
  ext i j
  simp only [reflect, Matrix.of_apply, Matrix.mul_apply]
  simp only [sub_mul, Finset.sum_sub_distrib, Matrix.one_apply]
  simp [Finset.mul_sum, mul_assoc]

theorem reflect_one_apply (v : Fin r → 𝕜) (i j : Fin r) : reflect v (1 : Matrix (Fin r) (Fin r) 𝕜) i j = (1 : Matrix (Fin r) (Fin r) 𝕜) i j - 2 * v i * star (v j) := by
  simp [reflect, Matrix.one_apply]

theorem reflect_unitary (v : Fin r → 𝕜) (hv : ∑ q, star (v q) * v q = 1) :
    (reflect v (1 : Matrix (Fin r) (Fin r) 𝕜)).conjTranspose * reflect v (1 : Matrix (Fin r) (Fin r) 𝕜) = 1 := by
  have hH : (reflect v (1 : Matrix (Fin r) (Fin r) 𝕜)).conjTranspose = reflect v 1 := by
    ext i j
    rw [Matrix.conjTranspose_apply, reflect_one_apply, reflect_one_apply, star_sub, star_mul', star_mul', star_star]
    have : star (2 : 𝕜) = 2 := by rw [RCLike.star_def]; exact map_ofNat _ 2
    rw [this]
    congr 1
    · rw [Matrix.one_apply, Matrix.one_apply]; split <;> split <;> simp_all
    · ring
  rw [hH, ← reflect_eq_mul]
  ext i j
  have e : reflect v (reflect v (1 : Matrix (Fin r) (Fin r) 𝕜)) i j
      = reflect v 1 i j - 2 * v i * ∑ q, star (v q) * reflect v (1 : Matrix (Fin r) (Fin r) 𝕜) q j := rfl
  rw [e]
  have e2 : ∑ q, star (v q) * reflect v (1 : Matrix (Fin r) (Fin r) 𝕜) q j = - star (v j) := by
    have : ∀ q, star (v q) * reflect v (1 : Matrix (Fin r) (Fin r) 𝕜) q j
        = star (v q) * (1 : Matrix (Fin r) (Fin r) 𝕜) q j - 2 * star (v j) * (star (v q) * v q) := by
      intro q; rw [reflect_one_apply]; ring
    simp only [this, Finset.sum_sub_distrib, ← Finset.mul_sum, hv]
    simp [Matrix.one_apply]
    ring
  rw [e2, reflect_one_apply]; ring

/-- Invariant of the QR loop. -/
structure QRInv (A : Matrix (Fin (r + 1)) (Fin n) 𝕜) (s : QRState 𝕜 (r + 1) n) (k : ℕ) : Prop where
  unit : s.QT.conjTranspose * s.QT = 1
  eq : s.R = s.QT * A
  low : ∀ (i : Fin (r + 1)) (j : Fin n), j.val < k → j.val < i.val → s.R i j = 0

theorem qr_inv (lo hi : ℝ) (hlo : 0 < lo) (hh : lo ≤ hi) (hrn : n ≤ r + 1) (A : Matrix (Fin (r + 1)) (Fin n) 𝕜) :
    QRInv A (forUp n 0 (qrStep lo hi hrn) ⟨A, 1⟩) n := by
  refine forUp_inv (n := n) (lo := 0) (body := qrStep lo hi hrn) (fun k s => QRInv A s k) (Nat.zero_le _)
    ⟨by simp, by simp, fun i j h => by omega⟩ ?_
  rintro k s - ⟨h1, h2, h3⟩
  obtain ⟨hv, hz, hk⟩ := householder_spec lo hi hlo hh hrn s.R k
  unfold qrStep
  set v := householder lo hi hrn s.R k with hvdef
  clear_value v
  refine ⟨?_, ?_, ?_⟩
  · simp only
    rw [reflect_eq_mul, Matrix.conjTranspose_mul, Matrix.mul_assoc, ← Matrix.mul_assoc (reflect v (1 : Matrix (Fin (r + 1)) (Fin (r + 1)) 𝕜)).conjTranspose, reflect_unitary v hv,
      Matrix.one_mul, h1]
  · simp only
    rw [reflect_eq_mul, reflect_eq_mul v s.QT, h2, Matrix.mul_assoc]
  · intro i j hj hji
    by_cases hjk : j = k
    · subst hjk; exact hk i hji
    · have : j.val ≠ k.val := fun h => hjk (Fin.ext h)
      simp only [reflect, Matrix.of_apply]
      rw [Finset.sum_eq_zero, h3 i j (by omega) hji]
      · ring
      · intro q _
        by_cases hq : q.val < k.val
        · rw [hz q hq]; simp
        · rw [h3 q j (by omega) (by omega)]; simp

theorem zeroLower_apply (hrn : n ≤ r) (R : Matrix (Fin r) (Fin n) 𝕜) (i : Fin r) (j : Fin n) :
    zeroLower hrn R i j = if j.val < i.val ∧ i.val < n then 0 else R i j := by
  have key := forUp_inv (n := n) (lo := 0) (s := R) (body := fun c R => forUp n (c.val + 1) (fun row (R : Matrix (Fin r) (Fin n) 𝕜) => Matrix.of fun i j =>
      if i = Fin.castLE hrn row ∧ j = c then 0 else R i j) R)
    (fun c R' => ∀ i j, R' i j = if j.val < i.val ∧ i.val < n ∧ j.val < c then 0 else R i j) (Nat.zero_le _) (fun i j => by simp) ?_
  · have := key i j
    rw [zeroLower, this]
    have hj := j.isLt
    by_cases h : j.val < i.val ∧ i.val < n
    · rw [if_pos ⟨h.1, h.2, hj⟩, if_pos h]
    · rw [if_neg fun h' => h ⟨h'.1, h'.2.1⟩, if_neg h]
  · intro c R1 _ h1 i j
    have inner := forUp_inv (n := n) (lo := c.val + 1) (s := R1) (body := fun row (R : Matrix (Fin r) (Fin n) 𝕜) => Matrix.of fun i j =>
        if i = Fin.castLE hrn row ∧ j = c then 0 else R i j)
      (fun k R' => ∀ i j, R' i j = if j = c ∧ c.val < i.val ∧ i.val < k then 0 else R1 i j) (by omega) (fun i j => by
        rw [if_neg (by omega)]) ?_
    · have := inner i j
      rw [this, h1]
      by_cases hjc : j = c
      · subst hjc
        by_cases hi : j.val < i.val ∧ i.val < n
        · rw [if_pos ⟨rfl, hi⟩, if_pos ⟨hi.1, hi.2, by omega⟩]
        · rw [if_neg fun h' => hi h'.2, if_neg fun h' => hi ⟨h'.1, h'.2.1⟩, if_neg fun h' => hi ⟨h'.1, h'.2.1⟩]
      · have : j.val ≠ c.val := fun e => hjc (Fin.ext e)
        rw [if_neg fun h' => hjc h'.1]
        by_cases hi : j.val < i.val ∧ i.val < n ∧ j.val < c.val
        · rw [if_pos hi, if_pos ⟨hi.1, hi.2.1, by omega⟩]
        · rw [if_neg hi, if_neg fun h' => hi ⟨h'.1, h'.2.1, by omega⟩]
    · intro k R2 hk h2 i j
      rw [Matrix.of_apply]
      by_cases hik : i = Fin.castLE hrn k ∧ j = c
      · have hv : i.val = k.val := by rw [hik.1]; rfl
        rw [if_pos hik, if_pos ⟨hik.2, by omega, by omega⟩]
      · rw [if_neg hik, h2]
        by_cases hj : j = c ∧ c.val < i.val ∧ i.val < k.val
        · rw [if_pos hj, if_pos ⟨hj.1, hj.2.1, by omega⟩]
        · rw [if_neg hj, if_neg fun h' => ?_]
          have : i.val ≠ k.val := fun e => hik ⟨Fin.ext e, h'.1⟩
          exact hj ⟨h'.1, h'.2.1, by omega⟩

theorem zeroLower_id (hrn : n ≤ r) (R : Matrix (Fin r) (Fin n) 𝕜)
    (h : ∀ (i : Fin r) (j : Fin n), j.val < i.val → R i j = 0) : zeroLower hrn R = R := by
  unfold zeroLower
  refine forUp_inv (n := n) (lo := 0) (fun _ R' => R' = R) (Nat.zero_le _) rfl ?_
  intro c R1 _ hR1
  rw [hR1]
  refine forUp_inv (n := n) (lo := c.val + 1) (fun _ R' => R' = R) (by omega) rfl ?_
  intro row R2 hrow hR2
  rw [hR2]
  ext i j
  simp only [Matrix.of_apply]
  split
  · rename_i hij
    rw [hij.1, hij.2, h _ _ (by simpa using hrow)]
  · rfl

theorem scaler_pos (lo : ℝ) (hlo : 0 < lo) (x : ℝ) : 0 < max lo x := lt_max_of_lt_left hlo

/-- The factorisation. -/
theorem decomposeQR_spec (lo hi : ℝ) (hlo : 0 < lo) (hh : lo ≤ hi) (hrn : n + 1 ≤ r + 1) (A : Matrix (Fin (r + 1)) (Fin (n + 1)) 𝕜) :
    ((decomposeQR lo hi hrn A).Q.conjTranspose * (decomposeQR lo hi hrn A).Q = 1) ∧
    (∀ i j, j < i → (decomposeQR lo hi hrn A).R i j = 0) ∧
    (decomposeQR lo hi hrn A).Q * (decomposeQR lo hi hrn A).R = A := by
  unfold decomposeQR
  simp only
  have hsc := scaler_pos lo hlo (matScaleElements A)
  set sc : ℝ := max lo (matScaleElements A) with hscdef
  clear_value sc
  have hsc' : ((sc : ℝ) : 𝕜) ≠ 0 := by exact_mod_cast hsc.ne'
  have hI := qr_inv lo hi hlo hh hrn (Matrix.of fun i j => A i j / (sc : 𝕜))
  set s := forUp (n + 1) 0 (qrStep lo hi hrn) (⟨Matrix.of fun i j => A i j / (sc : 𝕜), 1⟩ : QRState 𝕜 (r + 1) (n + 1)) with hs
  clear_value s
  obtain ⟨h1, h2, h3⟩ := hI
  have h1' : s.QT * s.QT.conjTranspose = 1 := mul_eq_one_comm.1 h1
  have h3' : ∀ (i : Fin (r + 1)) (j : Fin (n + 1)), j.val < i.val → s.R i j = 0 := fun i j hij => h3 i j j.isLt hij
  rw [zeroLower_id hrn s.R h3']
  refine ⟨?_, ?_, ?_⟩
  · ext i j
    have := congrFun (congrFun h1' (Fin.castLE hrn i)) (Fin.castLE hrn j)
    rw [Matrix.mul_apply] at this
    rw [Matrix.mul_apply]
    simp only [Matrix.conjTranspose_apply, Matrix.of_apply, star_star] at this ⊢
    rw [this, Matrix.one_apply, Matrix.one_apply]
    simp only [(Fin.castLE_injective hrn).eq_iff]
  · intro i j hij
    simp only [Matrix.of_apply]
    rw [h3' _ _ (by simpa using hij), mul_zero]
  · have hA : s.QT.conjTranspose * s.R = Matrix.of fun i j => A i j / (sc : 𝕜) := by
      rw [h2, ← Matrix.mul_assoc, h1, Matrix.one_mul]
    ext i j
    have := congrFun (congrFun hA i) j
    rw [Matrix.mul_apply] at this
    rw [Matrix.mul_apply]
    simp only [Matrix.conjTranspose_apply, Matrix.of_apply] at this ⊢
    have e : ∑ q : Fin (n + 1), star (s.QT (Fin.castLE hrn q) i) * ((sc : 𝕜) * s.R (Fin.castLE hrn q) j)
        = (sc : 𝕜) * ∑ q : Fin (r + 1), star (s.QT q i) * s.R q j := by
      rw [Finset.mul_sum]
      apply Finset.sum_of_injOn (Fin.castLE hrn)
      · intro a _ b _ hab; exact Fin.castLE_injective hrn hab
      · intro a _; simp
      · intro q _ hq
        have : n + 1 ≤ q.val := by
          by_contra hlt
          exact hq ⟨⟨q.val, by omega⟩, by simp, Fin.ext rfl⟩
        rw [h3' q j (by omega)]; simp
      · intro q _; ring
    rw [e, this]
    field_simp

end Mathter
