import Verif.Model.SVD
import Mathlib.Tactic.LinearCombination
import Mathlib.Tactic.FieldSimp
import Mathlib.Tactic.Linarith
import Mathlib.Tactic.Positivity

/-! # Lemmas about the 2x2 kernels of the SVD -/

namespace Mathter
universe u
variable {𝕜 : Type u} [RCLike 𝕜]

theorem star_mul_self_K (x : 𝕜) : star x * x = ((‖x‖ ^ 2 : ℝ) : 𝕜) := by
  rw [RCLike.star_def, RCLike.conj_mul]; push_cast; rfl

theorem mul_star_self_K (x : 𝕜) : x * star x = ((‖x‖ ^ 2 : ℝ) : 𝕜) := by rw [mul_comm, star_mul_self_K]

@[simp] theorem star_ofReal_K (x : ℝ) : star ((x : ℝ) : 𝕜) = (x : 𝕜) := by rw [RCLike.star_def, RCLike.conj_ofReal]

theorem norm_sq_re_im (x : 𝕜) : ‖x‖ ^ 2 = RCLike.re x ^ 2 + RCLike.im x ^ 2 := by
  rw [RCLike.norm_sq_eq_def]; ring

theorem unit_iff (c s : 𝕜) : star c * c + star s * s = 1 ↔ ‖c‖ ^ 2 + ‖s‖ ^ 2 = 1 := by
  rw [star_mul_self_K, star_mul_self_K, ← RCLike.ofReal_add]
  constructor
  · intro h; exact_mod_cast h
  · intro h; rw [h]; simp

theorem scaleElt_nonneg (x : 𝕜) : 0 ≤ scaleElt x := le_max_of_le_left (abs_nonneg _)

theorem scaleElt_eq_zero (x : 𝕜) : scaleElt x = 0 ↔ x = 0 := by
  constructor
  · intro h
    have h1 : |RCLike.re x| = 0 := le_antisymm (h ▸ le_max_left _ _) (abs_nonneg _)
    have h2 : |RCLike.im x| = 0 := le_antisymm (h ▸ le_max_right _ _) (abs_nonneg _)
    apply RCLike.ext <;> simp_all
  · rintro rfl; simp [scaleElt]

theorem abs_copysignR (neg : Bool) (d z : ℝ) : |copysignR neg d z| = |d| := by
  unfold copysignR; split <;> simp

theorem copysignR_sq (neg : Bool) (d z : ℝ) : copysignR neg d z ^ 2 = d ^ 2 := by
  rw [← sq_abs, abs_copysignR, sq_abs]

theorem copysignR_mul_nonneg (neg : Bool) (d z : ℝ) : 0 ≤ z * copysignR neg d z := by
  unfold copysignR
  split
  · rename_i h
    rcases h with h | h
    · nlinarith [abs_nonneg d]
    · simp [h.1]
  · rename_i h
    push Not at h
    exact mul_nonneg h.1 (abs_nonneg d)

/-- The root both diagonalisations use. -/
theorem root_eq (neg : Bool) (z d g : ℝ) (hd : d ^ 2 = z ^ 2 + 4 * g) :
    (1 / 2 * (z + copysignR neg d z)) ^ 2 - z * (1 / 2 * (z + copysignR neg d z)) = g := by
  have := copysignR_sq neg d z
  nlinarith

theorem root_ge (neg : Bool) (z d g : ℝ) (hd : d ^ 2 = z ^ 2 + 4 * g) : g ≤ (1 / 2 * (z + copysignR neg d z)) ^ 2 := by
  have h1 := copysignR_sq neg d z
  have h2 := copysignR_mul_nonneg neg d z
  nlinarith [sq_nonneg z]

theorem normalizeK_norm (one x : 𝕜) (h : ‖one‖ = 1) : ‖normalizeK one x‖ = 1 := by
  unfold normalizeK
  split
  · exact h
  · rename_i hx
    rw [norm_div, RCLike.norm_ofReal, abs_norm, div_self (norm_ne_zero_iff.2 hx)]

theorem normalizeK_mul (one x : 𝕜) : normalizeK one x * ((‖x‖ : ℝ) : 𝕜) = x := by
  unfold normalizeK
  split
  · rename_i hx; simp [hx]
  · rename_i hx
    have : ((‖x‖ : ℝ) : 𝕜) ≠ 0 := by exact_mod_cast norm_ne_zero_iff.2 hx
    field_simp

theorem maxIdx4_spec (s : Fin 4 → ℝ) (i : Fin 4) : s i ≤ s (maxIdx4 s) := by
  have h := forUp_inv (n := 4) (lo := 1) (body := fun i best => if s best < s i then i else best) (s := (0 : Fin 4))
    (fun k best => ∀ i : Fin 4, i.val < k → s i ≤ s best) (by norm_num)
    (by intro i hi; have : i = 0 := by ext; simpa using hi
        rw [this])
    (by
      intro j best _ hp i hi
      by_cases hb : s best < s j
      · simp only [hb, if_true]
        by_cases hij : i = j
        · rw [hij]
        · exact le_trans (hp i (by have : i.val ≠ j.val := fun h => hij (Fin.ext h)
                                   omega)) hb.le
      · simp only [hb, if_false]
        by_cases hij : i = j
        · rw [hij]; exact not_lt.1 hb
        · exact hp i (by have : i.val ≠ j.val := fun h => hij (Fin.ext h)
                         omega))
  exact h i i.isLt

/-- The inner product of the two columns of `M * [c, -conj s; s, conj c]`. -/
def orthOf (m11 m12 m21 m22 c s : 𝕜) : 𝕜 :=
  star (m11 * c + m12 * s) * (m11 * -star s + m12 * star c) + star (m21 * c + m22 * s) * (m21 * -star s + m22 * star c)

theorem orthOf_swap (m11 m12 m21 m22 c s : 𝕜) : orthOf m11 m12 m21 m22 (-star s) (star c) = -star (orthOf m11 m12 m21 m22 c s) := by
  simp only [orthOf, star_add, star_mul', star_neg, star_star]; ring

theorem orthOf_phase (m11 m12 m21 m22 c s q : 𝕜) : orthOf m11 m12 m21 m22 (q * c) (q * s) = star q ^ 2 * orthOf m11 m12 m21 m22 c s := by
  simp only [orthOf, star_add, star_mul', star_neg, star_star]; ring

theorem minimizeRotation_spec (c s : 𝕜) (h : star c * c + star s * s = 1) :
    (star (minimizeRotation c s).1 * (minimizeRotation c s).1 + star (minimizeRotation c s).2 * (minimizeRotation c s).2 = 1) ∧
    (minimizeRotation c s).1 = ((max ‖c‖ ‖s‖ : ℝ) : 𝕜) ∧
    ‖(minimizeRotation c s).2‖ ≤ ‖(minimizeRotation c s).1‖ ∧
    (∀ m11 m12 m21 m22 : 𝕜, orthOf m11 m12 m21 m22 c s = 0 →
      orthOf m11 m12 m21 m22 (minimizeRotation c s).1 (minimizeRotation c s).2 = 0) := by
  have hu := (unit_iff c s).1 h
  have key : ∀ c s : 𝕜, star c * c + star s * s = 1 → ‖s‖ ≤ ‖c‖ →
      (star (star (c / ((‖c‖ : ℝ) : 𝕜)) * c) * (star (c / ((‖c‖ : ℝ) : 𝕜)) * c) + star (star (c / ((‖c‖ : ℝ) : 𝕜)) * s) * (star (c / ((‖c‖ : ℝ) : 𝕜)) * s) = 1) ∧
      star (c / ((‖c‖ : ℝ) : 𝕜)) * c = ((‖c‖ : ℝ) : 𝕜) ∧ ‖star (c / ((‖c‖ : ℝ) : 𝕜)) * s‖ ≤ ‖star (c / ((‖c‖ : ℝ) : 𝕜)) * c‖ := by
    intro c s h hle
    have hu := (unit_iff c s).1 h
    have hc : ‖c‖ ≠ 0 := by
      intro h0
      have : ‖s‖ = 0 := le_antisymm (h0 ▸ hle) (norm_nonneg _)
      rw [h0, this] at hu; norm_num at hu
    have hc' : ((‖c‖ : ℝ) : 𝕜) ≠ 0 := by exact_mod_cast hc
    have hq : star (star (c / ((‖c‖ : ℝ) : 𝕜))) * star (c / ((‖c‖ : ℝ) : 𝕜)) = 1 := by
      rw [star_mul_self_K, norm_star, norm_div, RCLike.norm_ofReal, abs_norm, div_self hc]; simp
    have hqn : ‖star (c / ((‖c‖ : ℝ) : 𝕜))‖ = 1 := by
      rw [norm_star, norm_div, RCLike.norm_ofReal, abs_norm, div_self hc]
    refine ⟨?_, ?_, ?_⟩
    · rw [star_mul', star_mul']
      linear_combination (star c * c + star s * s) * hq + h
    · rw [star_div₀, star_ofReal_K, div_mul_eq_mul_div, star_mul_self_K, div_eq_iff hc']; push_cast; ring
    · rw [norm_mul, norm_mul, hqn]; simpa using hle
  unfold minimizeRotation
  by_cases hlt : ‖c‖ < ‖s‖
  · simp only [hlt, if_true]
    have hn : ‖s‖ = ‖-star s‖ := by rw [norm_neg, norm_star]
    have h' : star (-star s) * (-star s) + star (star c) * star c = 1 := by
      rw [← h]; simp only [star_neg, star_star]; ring
    have hk := key (-star s) (star c) h' (by rw [← hn, norm_star]; exact hlt.le)
    rw [← hn] at hk
    refine ⟨hk.1, ?_, hk.2.2, ?_⟩
    · rw [hk.2.1, max_eq_right hlt.le]
    · intro m11 m12 m21 m22 h0
      rw [orthOf_phase, orthOf_swap, h0]; simp
  · simp only [hlt, if_false]
    have hk := key c s h (not_lt.1 hlt)
    refine ⟨hk.1, ?_, hk.2.2, ?_⟩
    · rw [hk.2.1, max_eq_left (not_lt.1 hlt)]
    · intro m11 m12 m21 m22 h0
      rw [orthOf_phase, h0]; simp

/-- Both diagonalisations solve `‖g‖² - L² + L z = 0`. -/
theorem diagonalizeTriangular_spec (neg : Bool) (r11 r12 r22 : 𝕜) :
    (star (diagonalizeTriangular neg r11 r12 r22).1 * (diagonalizeTriangular neg r11 r12 r22).1 +
      star (diagonalizeTriangular neg r11 r12 r22).2 * (diagonalizeTriangular neg r11 r12 r22).2 = 1) ∧
    orthOf r11 r12 0 r22 (diagonalizeTriangular neg r11 r12 r22).1 (diagonalizeTriangular neg r11 r12 r22).2 = 0 := by
  unfold diagonalizeTriangular
  simp only
  by_cases h0 : r12 * star r11 = 0
  · rw [if_pos h0]
    refine ⟨by simp, ?_⟩
    have h1 : star r11 * r12 = 0 := by rw [mul_comm]; exact h0
    simp only [orthOf, star_zero, star_one, mul_zero, mul_one, add_zero, neg_zero, zero_add, zero_mul, h1]
  · rw [if_neg h0]
    set z : ℝ := (RCLike.re r22 + RCLike.re r11) * (RCLike.re r22 - RCLike.re r11) +
      (RCLike.im r22 + RCLike.im r11) * (RCLike.im r22 - RCLike.im r11) + ‖r12‖ ^ 2 with hz
    have hz' : z = ‖r22‖ ^ 2 - ‖r11‖ ^ 2 + ‖r12‖ ^ 2 := by
      rw [hz, norm_sq_re_im r22, norm_sq_re_im r11]; ring
    have hd : Real.sqrt (4 * ‖r11‖ ^ 2 * ‖r12‖ ^ 2 + z * z) ^ 2 = z ^ 2 + 4 * (‖r11‖ ^ 2 * ‖r12‖ ^ 2) := by
      rw [Real.sq_sqrt (add_nonneg (by positivity) (mul_self_nonneg z))]; ring
    have hL := root_eq neg z _ _ hd
    set L : ℝ := 1 / 2 * (z + copysignR neg (Real.sqrt (4 * ‖r11‖ ^ 2 * ‖r12‖ ^ 2 + z * z)) z) with hLd
    clear_value L
    set u : 𝕜 := (L : 𝕜) / (r12 * star r11) with hu
    have hsc : (1 + RCLike.re u ^ 2 + RCLike.im u ^ 2) = 1 + ‖u‖ ^ 2 := by rw [norm_sq_re_im]; ring
    rw [hsc]
    have hspos : 0 < Real.sqrt (1 + ‖u‖ ^ 2) := Real.sqrt_pos.2 (by positivity)
    have hs2 : Real.sqrt (1 + ‖u‖ ^ 2) ^ 2 = 1 + ‖u‖ ^ 2 := Real.sq_sqrt (by positivity)
    set sc := Real.sqrt (1 + ‖u‖ ^ 2) with hscd
    clear_value sc
    have hscK : ((sc : ℝ) : 𝕜) ≠ 0 := by exact_mod_cast hspos.ne'
    have hs2K : ((sc : ℝ) : 𝕜) ^ 2 = 1 + star u * u := by
      rw [star_mul_self_K]; exact_mod_cast congrArg (fun x : ℝ => (x : 𝕜)) hs2
    refine ⟨?_, ?_⟩
    · rw [star_div₀, star_ofReal_K, star_ofReal_K]
      push_cast
      field_simp
      rw [hs2K]
    · have e1 : ((1 / sc : ℝ) : 𝕜) = (1 / (sc : 𝕜)) * 1 := by push_cast; ring
      have e2 : u / (sc : 𝕜) = (1 / (sc : 𝕜)) * u := by ring
      rw [e1, e2, orthOf_phase]
      have hg : star r11 * r12 ≠ 0 := by rw [mul_comm]; exact h0
      have hg' : r11 * star r12 ≠ 0 := by
        intro h; apply hg
        have := congrArg star h
        simpa using this
      have hub : star u * (r11 * star r12) = (L : 𝕜) := by
        rw [hu, star_div₀, star_mul', star_star, star_ofReal_K, mul_comm r11, div_mul_cancel₀ _ (by rw [mul_comm]; exact hg')]
      have hLK : ((L : 𝕜)) ^ 2 - ((r22 * star r22) - (r11 * star r11) + (r12 * star r12)) * (L : 𝕜) = (r11 * star r11) * (r12 * star r12) := by
        simp only [mul_star_self_K]
        have h2 : L ^ 2 - (‖r22‖ ^ 2 - ‖r11‖ ^ 2 + ‖r12‖ ^ 2) * L = ‖r11‖ ^ 2 * ‖r12‖ ^ 2 := by rw [← hz']; exact hL
        exact_mod_cast congrArg (fun x : ℝ => (x : 𝕜)) h2
      have : orthOf r11 r12 0 r22 1 u = 0 := by
        have hm : (r11 * star r12) * orthOf r11 r12 0 r22 1 u = 0 := by
          simp only [orthOf, star_add, star_mul', star_zero, star_one, zero_mul, zero_add, mul_one]
          linear_combination (-1 : 𝕜) * hLK + (-(star u * (r11 * star r12)) - (L : 𝕜) + ((r22 * star r22) - (r11 * star r11) + (r12 * star r12))) * hub
        rcases mul_eq_zero.1 hm with h | h
        · exact absurd h hg'
        · exact h
      rw [this]; simp

theorem hermitianRoot_spec (neg : Bool) (a11 : ℝ) (aoff : 𝕜) (a22 : ℝ) :
    hermitianRoot neg a11 aoff a22 ^ 2 - (a22 - a11) * hermitianRoot neg a11 aoff a22 = ‖aoff‖ ^ 2 ∧
    ‖aoff‖ ≤ |hermitianRoot neg a11 aoff a22| := by
  have hd : Real.sqrt ((a22 - a11) ^ 2 + (2 * RCLike.re aoff) ^ 2 + (2 * RCLike.im aoff) ^ 2) ^ 2 = (a22 - a11) ^ 2 + 4 * ‖aoff‖ ^ 2 := by
    rw [Real.sq_sqrt (by positivity), norm_sq_re_im]; ring
  refine ⟨root_eq neg _ _ _ hd, ?_⟩
  have := root_ge neg _ _ _ hd
  have h := Real.sqrt_le_sqrt this
  rw [Real.sqrt_sq (norm_nonneg _), Real.sqrt_sq_eq_abs] at h
  exact h

theorem diagonalizeHermitian_spec (neg : Bool) (a11 : ℝ) (aoff : 𝕜) (a22 : ℝ) :
    (star (diagonalizeHermitian neg a11 aoff a22).1 * (diagonalizeHermitian neg a11 aoff a22).1 +
      star (diagonalizeHermitian neg a11 aoff a22).2 * (diagonalizeHermitian neg a11 aoff a22).2 = 1) ∧
    star (diagonalizeHermitian neg a11 aoff a22).1 ^ 2 * aoff - star (diagonalizeHermitian neg a11 aoff a22).2 ^ 2 * star aoff +
      star (diagonalizeHermitian neg a11 aoff a22).1 * star (diagonalizeHermitian neg a11 aoff a22).2 * ((a22 - a11 : ℝ) : 𝕜) = 0 := by
  obtain ⟨hL, hge⟩ := hermitianRoot_spec neg a11 aoff a22
  unfold diagonalizeHermitian
  by_cases h0 : aoff = 0
  · simp [h0]
  · simp only [if_neg h0]
    set L := hermitianRoot neg a11 aoff a22
    clear_value L
    have hL0 : L ≠ 0 := by
      intro h; rw [h] at hge; simp at hge; exact h0 hge
    have hLK0 : ((L : ℝ) : 𝕜) ≠ 0 := by exact_mod_cast hL0
    have hs2 : Real.sqrt (‖aoff / (L : 𝕜)‖ ^ 2 + ‖(1 : 𝕜)‖ ^ 2) ^ 2 = ‖aoff / (L : 𝕜)‖ ^ 2 + 1 := by
      rw [Real.sq_sqrt (by positivity)]; simp
    have hspos : 0 < Real.sqrt (‖aoff / (L : 𝕜)‖ ^ 2 + ‖(1 : 𝕜)‖ ^ 2) := Real.sqrt_pos.2 (by simp; positivity)
    set sc := Real.sqrt (‖aoff / (L : 𝕜)‖ ^ 2 + ‖(1 : 𝕜)‖ ^ 2)
    clear_value sc
    have hscK : ((sc : ℝ) : 𝕜) ≠ 0 := by exact_mod_cast hspos.ne'
    have hs2K : ((sc : ℝ) : 𝕜) ^ 2 = star (aoff / (L : 𝕜)) * (aoff / (L : 𝕜)) + 1 := by
      rw [star_mul_self_K]; exact_mod_cast congrArg (fun x : ℝ => (x : 𝕜)) hs2
    have hLK : ((L : 𝕜)) ^ 2 - ((a22 - a11 : ℝ) : 𝕜) * (L : 𝕜) = star aoff * aoff := by
      rw [star_mul_self_K]
      exact_mod_cast congrArg (fun x : ℝ => (x : 𝕜)) hL
    refine ⟨?_, ?_⟩
    · rw [star_div₀ (aoff / (L : 𝕜)), star_div₀ (1 : 𝕜), star_ofReal_K, star_one, div_mul_div_comm, div_mul_div_comm, ← add_div,
        ← sq (sc : 𝕜), one_mul, ← hs2K]
      exact div_self (pow_ne_zero 2 hscK)
    · rw [star_div₀ (aoff / (L : 𝕜)), star_div₀ (1 : 𝕜), star_ofReal_K, star_one, star_div₀, star_ofReal_K]
      field_simp
      linear_combination (-star aoff) * hLK

/-- `A = R * [cq, -conj sq; sq, conj cq]`. -/
theorem decomposeRQ2_spec (a11 a12 a21 a22 : 𝕜) :
    (star (decomposeRQ2 a11 a12 a21 a22).cq * (decomposeRQ2 a11 a12 a21 a22).cq +
      star (decomposeRQ2 a11 a12 a21 a22).sq * (decomposeRQ2 a11 a12 a21 a22).sq = 1) ∧
    a11 = (decomposeRQ2 a11 a12 a21 a22).r11 * (decomposeRQ2 a11 a12 a21 a22).cq + (decomposeRQ2 a11 a12 a21 a22).r12 * (decomposeRQ2 a11 a12 a21 a22).sq ∧
    a12 = (decomposeRQ2 a11 a12 a21 a22).r11 * -star (decomposeRQ2 a11 a12 a21 a22).sq + (decomposeRQ2 a11 a12 a21 a22).r12 * star (decomposeRQ2 a11 a12 a21 a22).cq ∧
    a21 = (decomposeRQ2 a11 a12 a21 a22).r22 * (decomposeRQ2 a11 a12 a21 a22).sq ∧
    a22 = (decomposeRQ2 a11 a12 a21 a22).r22 * star (decomposeRQ2 a11 a12 a21 a22).cq := by
  unfold decomposeRQ2
  by_cases h0 : a21 = 0
  · simp [h0]
  · simp only [if_neg h0]
    have h1 : 0 < scaleElt a21 := lt_of_le_of_ne (scaleElt_nonneg _) (fun h => h0 ((scaleElt_eq_zero _).1 h.symm))
    have hsd : 0 < max (scaleElt a21) (scaleElt a22) := lt_max_of_lt_left h1
    have hgt : ¬ scaleElt a21 > scaleElt a22 → a22 ≠ 0 := by
      intro h h'
      rw [h', (scaleElt_eq_zero (0 : 𝕜)).2 rfl] at h
      exact h h1
    set sd := max (scaleElt a21) (scaleElt a22)
    clear_value sd
    have hsdK : ((sd : ℝ) : 𝕜) ≠ 0 := by exact_mod_cast hsd.ne'
    have hx : a21 / (sd : 𝕜) ≠ 0 := div_ne_zero h0 hsdK
    have hy : ¬ scaleElt a21 > scaleElt a22 → a22 / (sd : 𝕜) ≠ 0 := fun h => div_ne_zero (hgt h) hsdK
    have ex : a21 = (sd : 𝕜) * (a21 / (sd : 𝕜)) := by field_simp
    have ey : a22 = (sd : 𝕜) * (a22 / (sd : 𝕜)) := by field_simp
    set x := a21 / (sd : 𝕜)
    set y := a22 / (sd : 𝕜)
    clear_value x y
    have hd2 : Real.sqrt (‖x‖ ^ 2 + ‖y‖ ^ 2) ^ 2 = ‖x‖ ^ 2 + ‖y‖ ^ 2 := Real.sq_sqrt (by positivity)
    have hdpos : 0 < Real.sqrt (‖x‖ ^ 2 + ‖y‖ ^ 2) := Real.sqrt_pos.2 (by
      have := norm_pos_iff.2 hx; positivity)
    set dv := Real.sqrt (‖x‖ ^ 2 + ‖y‖ ^ 2)
    clear_value dv
    have hdK : ((dv : ℝ) : 𝕜) ≠ 0 := by exact_mod_cast hdpos.ne'
    have hd2K : ((dv : ℝ) : 𝕜) ^ 2 = star x * x + star y * y := by
      rw [star_mul_self_K, star_mul_self_K]; exact_mod_cast congrArg (fun x : ℝ => (x : 𝕜)) hd2
    have hr : (if scaleElt a21 > scaleElt a22 then x / (x / (dv : 𝕜)) else y / star (star (y / (dv : 𝕜)))) = (dv : 𝕜) := by
      split
      · field_simp
      · rename_i h
        have := hy h
        rw [star_star]; field_simp
    rw [hr]
    have hun : star (x / (dv : 𝕜)) * (x / (dv : 𝕜)) + star (y / (dv : 𝕜)) * (y / (dv : 𝕜)) = 1 := by
      rw [star_div₀, star_div₀, star_ofReal_K]
      field_simp
      exact hd2K.symm
    simp only [star_star]
    refine ⟨?_, ?_, ?_, ?_, ?_⟩
    · rw [mul_comm (y / (dv : 𝕜)), add_comm]; exact hun
    · linear_combination (-a11) * hun
    · linear_combination (-a12) * hun
    · rw [ex]; field_simp
    · rw [ey]; field_simp

/-- What the scaled orthogonal matrix is split into. -/
theorem scaledOrthogonal2_spec (one us00 us01 us10 us11 : 𝕜) (hone : ‖one‖ = 1) (horth : star us00 * us01 + star us10 * us11 = 0)
    (hne : us00 ≠ 0 ∨ us01 ≠ 0 ∨ us10 ≠ 0 ∨ us11 ≠ 0) :
    let d := scaledOrthogonal2 one us00 us01 us10 us11
    (star d.1 * d.1 + star d.2.1 * d.2.1 = 1) ∧ ‖d.2.2.1‖ = 1 ∧ 0 ≤ d.2.2.2.1 ∧ 0 ≤ d.2.2.2.2 ∧
    us00 = d.1 * (d.2.2.2.1 : 𝕜) ∧ us10 = d.2.1 * (d.2.2.2.1 : 𝕜) ∧
    us01 = d.2.2.1 * -star d.2.1 * (d.2.2.2.2 : 𝕜) ∧ us11 = d.2.2.1 * star d.1 * (d.2.2.2.2 : 𝕜) := by
  -- the two halves of the argument
  have first : ∀ w : 𝕜, us01 = -w * star us10 → us11 = w * star us00 → (us00 ≠ 0 ∨ us10 ≠ 0) →
      ∀ s00 s11 : ℝ, s00 = Real.sqrt (‖us00‖ ^ 2 + ‖us10‖ ^ 2) → s11 = Real.sqrt (‖us01‖ ^ 2 + ‖us11‖ ^ 2) →
      (star (us00 / (s00 : 𝕜)) * (us00 / (s00 : 𝕜)) + star (us10 / (s00 : 𝕜)) * (us10 / (s00 : 𝕜)) = 1) ∧
      us00 = us00 / (s00 : 𝕜) * (s00 : 𝕜) ∧ us10 = us10 / (s00 : 𝕜) * (s00 : 𝕜) ∧
      us01 = normalizeK one w * -star (us10 / (s00 : 𝕜)) * (s11 : 𝕜) ∧ us11 = normalizeK one w * star (us00 / (s00 : 𝕜)) * (s11 : 𝕜) := by
    intro w h01 h11 hn s00 s11 e00 e11
    have hpos : 0 < s00 := by
      rw [e00]; apply Real.sqrt_pos.2
      rcases hn with h | h <;> have := norm_pos_iff.2 h <;> positivity
    have hK : ((s00 : ℝ) : 𝕜) ≠ 0 := by exact_mod_cast hpos.ne'
    have h2 : s00 ^ 2 = ‖us00‖ ^ 2 + ‖us10‖ ^ 2 := by rw [e00]; exact Real.sq_sqrt (by positivity)
    have h2K : ((s00 : ℝ) : 𝕜) ^ 2 = star us00 * us00 + star us10 * us10 := by
      rw [star_mul_self_K, star_mul_self_K]; exact_mod_cast congrArg (fun x : ℝ => (x : 𝕜)) h2
    have hs11 : s11 = ‖w‖ * s00 := by
      rw [e11, h01, h11, norm_mul, norm_mul, norm_neg, norm_star, norm_star, e00, ← Real.sqrt_sq (norm_nonneg w), ← Real.sqrt_mul (sq_nonneg _),
        Real.sqrt_sq (norm_nonneg w)]
      congr 1; ring
    have hw := normalizeK_mul one w
    have hs11K : ((s11 : ℝ) : 𝕜) = ((‖w‖ : ℝ) : 𝕜) * (s00 : 𝕜) := by rw [hs11]; push_cast; rfl
    refine ⟨?_, ?_, ?_, ?_, ?_⟩
    · rw [star_div₀, star_div₀, star_ofReal_K]
      field_simp
      exact h2K.symm
    · field_simp
    · field_simp
    · rw [hs11K, star_div₀, star_ofReal_K]
      field_simp
      rw [h01]
      linear_combination (star us10) * hw
    · rw [hs11K, star_div₀, star_ofReal_K]
      field_simp
      rw [h11]
      linear_combination (-star us00) * hw
  have second : ∀ w : 𝕜, us10 = -w * star us01 → us00 = w * star us11 → (us01 ≠ 0 ∨ us11 ≠ 0) →
      ∀ s00 s11 : ℝ, s00 = Real.sqrt (‖us00‖ ^ 2 + ‖us10‖ ^ 2) → s11 = Real.sqrt (‖us01‖ ^ 2 + ‖us11‖ ^ 2) →
      (star (star (us11 / (s11 : 𝕜)) * normalizeK one w) * (star (us11 / (s11 : 𝕜)) * normalizeK one w) +
        star (-star (us01 / (s11 : 𝕜)) * normalizeK one w) * (-star (us01 / (s11 : 𝕜)) * normalizeK one w) = 1) ∧
      us00 = (star (us11 / (s11 : 𝕜)) * normalizeK one w) * (s00 : 𝕜) ∧ us10 = (-star (us01 / (s11 : 𝕜)) * normalizeK one w) * (s00 : 𝕜) ∧
      us01 = normalizeK one w * -star (-star (us01 / (s11 : 𝕜)) * normalizeK one w) * (s11 : 𝕜) ∧
      us11 = normalizeK one w * star (star (us11 / (s11 : 𝕜)) * normalizeK one w) * (s11 : 𝕜) := by
    intro w h10 h00 hn s00 s11 e00 e11
    have hpos : 0 < s11 := by
      rw [e11]; apply Real.sqrt_pos.2
      rcases hn with h | h <;> have := norm_pos_iff.2 h <;> positivity
    have hK : ((s11 : ℝ) : 𝕜) ≠ 0 := by exact_mod_cast hpos.ne'
    have h2 : s11 ^ 2 = ‖us01‖ ^ 2 + ‖us11‖ ^ 2 := by rw [e11]; exact Real.sq_sqrt (by positivity)
    have h2K : ((s11 : ℝ) : 𝕜) ^ 2 = star us01 * us01 + star us11 * us11 := by
      rw [star_mul_self_K, star_mul_self_K]; exact_mod_cast congrArg (fun x : ℝ => (x : 𝕜)) h2
    have hs00 : s00 = ‖w‖ * s11 := by
      rw [e00, h10, h00, norm_mul, norm_mul, norm_neg, norm_star, norm_star, e11, ← Real.sqrt_sq (norm_nonneg w), ← Real.sqrt_mul (sq_nonneg _),
        Real.sqrt_sq (norm_nonneg w)]
      congr 1; ring
    have hw := normalizeK_mul one w
    have hN : star (normalizeK one w) * normalizeK one w = 1 := by
      rw [star_mul_self_K, normalizeK_norm one w hone]; simp
    have hs00K : ((s00 : ℝ) : 𝕜) = ((‖w‖ : ℝ) : 𝕜) * (s11 : 𝕜) := by rw [hs00]; push_cast; rfl
    generalize normalizeK one w = N at *
    have hun : star (us01 / (s11 : 𝕜)) * (us01 / (s11 : 𝕜)) + star (us11 / (s11 : 𝕜)) * (us11 / (s11 : 𝕜)) = 1 := by
      rw [star_div₀, star_div₀, star_ofReal_K]
      field_simp
      exact h2K.symm
    have ea : us01 = us01 / (s11 : 𝕜) * (s11 : 𝕜) := by field_simp
    have eb : us11 = us11 / (s11 : 𝕜) * (s11 : 𝕜) := by field_simp
    refine ⟨?_, ?_, ?_, ?_, ?_⟩
    · simp only [star_mul', star_star, star_neg]
      linear_combination (star N * N) * hun + hN
    · rw [hs00K, star_div₀, star_ofReal_K]
      field_simp
      rw [h00]
      linear_combination (-star us11) * hw
    · rw [hs00K, star_div₀, star_ofReal_K]
      field_simp
      rw [h10]
      linear_combination (star us01) * hw
    · simp only [star_mul', star_star, star_neg]
      linear_combination (star N * N) * ea - us01 * hN
    · simp only [star_mul', star_star]
      linear_combination (star N * N) * eb - us11 * hN
  intro d
  have hnn : ∀ i : Fin 4, scaleElt ((![us00, us10, us01, us11] : Fin 4 → 𝕜) i) ≤ _ :=
    fun i => maxIdx4_spec (fun i => scaleElt ((![us00, us10, us01, us11] : Fin 4 → 𝕜) i)) i
  have hmax : (![us00, us10, us01, us11] : Fin 4 → 𝕜) (maxIdx4 fun i => scaleElt ((![us00, us10, us01, us11] : Fin 4 → 𝕜) i)) ≠ 0 := by
    intro h0
    rw [h0, (scaleElt_eq_zero (0 : 𝕜)).2 rfl] at hnn
    have hz : ∀ i, (![us00, us10, us01, us11] : Fin 4 → 𝕜) i = 0 := fun i =>
      (scaleElt_eq_zero _).1 (le_antisymm (hnn i) (scaleElt_nonneg _))
    have h0 := hz 0; have h1 := hz 1; have h2 := hz 2; have h3 := hz 3
    simp at h0 h1 h2 h3
    rcases hne with h | h | h | h <;> contradiction
  have horth' : us00 * star us01 + us10 * star us11 = 0 := by
    have := congrArg star horth
    simpa using this
  have hd : d = scaledOrthogonal2 one us00 us01 us10 us11 := rfl
  unfold scaledOrthogonal2 at hd
  simp only at hd
  generalize (maxIdx4 fun i => scaleElt ((![us00, us10, us01, us11] : Fin 4 → 𝕜) i)) = idx at hd hmax
  clear_value d
  have hs0 : ∀ x : ℝ, 0 ≤ Real.sqrt x := Real.sqrt_nonneg
  have star_ne : ∀ x : 𝕜, x ≠ 0 → star x ≠ 0 := fun x hx h => hx (by simpa using h)
  fin_cases idx
  · simp at hmax hd
    have hst := star_ne _ hmax
    have hf := first (us11 / star us00) (by field_simp; linear_combination horth) (by field_simp) (Or.inl hmax) _ _ rfl rfl
    subst hd
    exact ⟨hf.1, normalizeK_norm _ _ hone, hs0 _, hs0 _, hf.2⟩
  · simp at hmax hd
    have hst := star_ne _ hmax
    have hf := first (-(us01 / star us10)) (by field_simp) (by field_simp; linear_combination horth) (Or.inr hmax) _ _ rfl rfl
    subst hd
    exact ⟨hf.1, normalizeK_norm _ _ hone, hs0 _, hs0 _, hf.2⟩
  · simp at hmax hd
    have hst := star_ne _ hmax
    have hf := second (-(us10 / star us01)) (by field_simp) (by field_simp; linear_combination horth') (Or.inl hmax) _ _ rfl rfl
    subst hd
    simp only [star_div₀, neg_mul, star_ofReal_K] at hf ⊢
    exact ⟨hf.1, normalizeK_norm _ _ hone, hs0 _, hs0 _, hf.2⟩
  · simp at hmax hd
    have hst := star_ne _ hmax
    have hf := second (us00 / star us11) (by field_simp; linear_combination horth') (by field_simp) (Or.inr hmax) _ _ rfl rfl
    subst hd
    simp only [star_div₀, neg_mul, star_ofReal_K] at hf ⊢
    exact ⟨hf.1, normalizeK_norm _ _ hone, hs0 _, hs0 _, hf.2⟩

end Mathter
