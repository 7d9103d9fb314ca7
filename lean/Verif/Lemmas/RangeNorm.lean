import Verif.Model.RangeNorm
import Verif.Lemmas.Range
import Verif.Lemmas.Matrix
import Mathlib.Algebra.BigOperators.Fin

/-! Helper lemmas for the norm of matrices in a format with overflow and underflow. -/

namespace Mathter

theorem Mat.elementwise_get {K : Type*} {c : Cfg} {r n : ℕ} {o : Order} {L L' : Layout} {p1 p2 : Bool}
    (func : ∀ {d : ℕ}, Vec c K d p1 → Vec c K d p2 → Vec c K d (p1 && p2)) (f : K → K → K)
    (hf : ∀ {d : ℕ} (v : Vec c K d p1) (w : Vec c K d p2) (i : Fin d), (func v w).get i = f (v.get i) (w.get i))
    (jr : Vec c K n p2) (jc : Vec c K r p2) (m0 : Mat c K r n o L (p1 && p2)) (a : Mat c K r n o L p1) (b : Mat c K r n o L' p2)
    (i : Fin r) (j : Fin n) : (Mat.elementwise func jr jc m0 a b).get i j = f (a.get i j) (b.get i j) := by
  cases L
  · unfold Mat.elementwise
    dsimp only
    apply Mat.get_outerRows (fun i j => f (a.get i j) (b.get i j))
    intro i m i' j'
    rw [Mat.get_setRow, hf]
    simp [Mat.get]
  · unfold Mat.elementwise
    dsimp only
    apply Mat.get_outerCols (fun i j => f (a.get i j) (b.get i j))
    intro j m i' j'
    rw [Mat.get_setCol, hf]
    simp [Mat.get]

theorem psum_mono {n : ℕ} (f : Fin n → ℝ) (hf : ∀ i, 0 ≤ f i) (k : ℕ) : 0 ≤ psum f k ∧ psum f k ≤ ∑ i, f i :=
  ⟨Finset.sum_nonneg fun i _ => by split; exacts [hf i, le_refl _], Finset.sum_le_sum fun i _ => by split; exacts [le_refl _, hf i]⟩

namespace Rg
variable {c : Cfg} {r n dim : ℕ} {o : Order} {L : Layout} {pk : Bool} {p : ℕ} {emin : ℤ} {Ω : ℝ} {fl : ℝ → Option ℝ}

private theorem step_arith {u a A x y t S σ : ℝ} (hu : 0 ≤ u) (hu1 : u ≤ 1) (h1 : a * S ≤ x) (h2 : x ≤ A * S)
    (h3 : a * σ ≤ t) (h4 : t ≤ A * σ) (hx0 : 0 ≤ x + t) (he : |y - (x + t)| ≤ u * |x + t|) :
    a * (1 - u) * (S + σ) ≤ y ∧ y ≤ A * (1 + u) * (S + σ) := by
  rw [abs_of_nonneg hx0] at he
  have e1 := (abs_le.1 he).1
  have e2 := (abs_le.1 he).2
  have e3 := mul_le_mul_of_nonneg_right (add_le_add h1 h3) (by linarith : 0 ≤ 1 - u)
  have e4 := mul_le_mul_of_nonneg_right (add_le_add h2 h4) (by linarith : 0 ≤ 1 + u)
  constructor <;> linarith

/-- The loop over the stripes. -/
theorem loop_range (hp : 1 ≤ p) (h : RoundsInRange p emin Ω fl) {N d : ℕ} (g : Fin N → FR) (σ : Fin N → ℝ) (hσ : ∀ a, 0 ≤ σ a)
    (hS : (1 + (2 : ℝ) ^ (-(p : ℤ))) ^ (d + (N - 1)) * ∑ a, σ a ≤ Ω)
    (hg : ∀ a, ∃ t, g a = (some t : Option ℝ) ∧ IsRFloat p emin t ∧ 0 ≤ t ∧ (1 - (2 : ℝ) ^ (-(p : ℤ))) ^ d * σ a ≤ t ∧ t ≤ (1 + (2 : ℝ) ^ (-(p : ℤ))) ^ d * σ a) :
    ∃ T, forUp N 0 (fun s acc => op fl (· + ·) acc (g s)) (some 0 : FR) = (some T : Option ℝ) ∧ IsRFloat p emin T ∧
      (1 - (2 : ℝ) ^ (-(p : ℤ))) ^ (d + (N - 1)) * ∑ a, σ a ≤ T ∧ T ≤ (1 + (2 : ℝ) ^ (-(p : ℤ))) ^ (d + (N - 1)) * ∑ a, σ a := by
  have hu0 : 0 < (2 : ℝ) ^ (-(p : ℤ)) := two_zpow_pos _
  have hu1 : (2 : ℝ) ^ (-(p : ℤ)) ≤ 1 := zpow_le_one_of_nonpos₀ (by norm_num) (by omega)
  generalize hu : (2 : ℝ) ^ (-(p : ℤ)) = u at *
  have key := forUp_inv (n := N) (lo := 0) (body := fun s acc => op fl (· + ·) acc (g s)) (s := (some 0 : FR))
    (fun k acc => ∃ A : ℝ, acc = (some A : Option ℝ) ∧ IsRFloat p emin A ∧ 0 ≤ A ∧ (k = 0 → A = 0) ∧
      (1 - u) ^ (d + (k - 1)) * psum σ k ≤ A ∧ A ≤ (1 + u) ^ (d + (k - 1)) * psum σ k) (Nat.zero_le _)
    ⟨0, rfl, RoundsInRange.zero_mem, le_refl _, fun _ => rfl, by rw [psum_zero, mul_zero], by rw [psum_zero, mul_zero]⟩ (by
      rintro k acc - ⟨A, rfl, fA, A0, hz, lo, up⟩
      obtain ⟨t, ht, ft, t0, tl, tu⟩ := hg k
      rw [psum_succ]
      have hPS1 := psum_mono σ hσ (k.val + 1)
      rw [psum_succ] at hPS1
      have hval : op fl (· + ·) (some A : FR) (g k) = fl (A + t) := by rw [ht]; rfl
      have up' : t ≤ (1 + u) ^ (d + (k.val - 1)) * σ k := tu.trans (mul_le_mul_of_nonneg_right (pow_le_pow_right₀ (by linarith) (by omega)) (hσ k))
      have lo' : (1 - u) ^ (d + (k.val - 1)) * σ k ≤ t := (mul_le_mul_of_nonneg_right (pow_le_pow_of_le_one (by linarith) (by linarith) (by omega)) (hσ k)).trans tl
      have hin : |A + t| ≤ Ω := by
        rw [abs_of_nonneg (add_nonneg A0 t0)]
        have h1 : A + t ≤ (1 + u) ^ (d + (k.val - 1)) * (psum σ k + σ k) := by rw [mul_add]; exact add_le_add up up'
        have h2 : (1 + u) ^ (d + (k.val - 1)) * (psum σ k + σ k) ≤ (1 + u) ^ (d + (N - 1)) * (psum σ k + σ k) :=
          mul_le_mul_of_nonneg_right (pow_le_pow_right₀ (by linarith) (by have := k.isLt; omega)) hPS1.1
        have h3 : (1 + u) ^ (d + (N - 1)) * (psum σ k + σ k) ≤ (1 + u) ^ (d + (N - 1)) * ∑ a, σ a :=
          mul_le_mul_of_nonneg_left hPS1.2 (pow_nonneg (by linarith) _)
        linarith
      rcases Nat.eq_zero_or_pos k.val with hk | hk
      · rw [hz hk, zero_add] at hval hin
        rw [hk, psum_zero, zero_add]
        refine ⟨t, by rw [hz hk, hval]; exact h.exact ft hin, ft, t0, by omega, ?_, ?_⟩
        · simpa using tl
        · simpa using tu
      · obtain ⟨y, hy⟩ := h.finite _ hin
        have he := h.err_add hp fA ft hy
        rw [hu] at he
        have := step_arith hu0.le hu1 lo up lo' up' (add_nonneg A0 t0) he
        rw [← pow_succ, ← pow_succ, show d + (k.val - 1) + 1 = d + (k.val + 1 - 1) by omega] at this
        refine ⟨y, by rw [hval]; exact hy, h.mem _ _ hy, ?_, by omega, this.1, this.2⟩
        exact le_trans (mul_nonneg (pow_nonneg (by linarith) _) hPS1.1) this.1)
  obtain ⟨T, e, f, -, -, lo, up⟩ := key
  rw [psum_all] at lo up
  exact ⟨T, e, f, lo, up⟩

/-- The lanes of the stripes by row and column. -/
def lane {K : Type*} {L : Layout} (F : Fin r → Fin n → K) : Fin (stripeCount L r n) → Fin (stripeDim L r n) → K :=
  match L with
  | .row => fun s t => F s t
  | .col => fun s t => F t s

theorem get_lane {K : Type*} (m : Mat c K r n o L pk) (F : Fin r → Fin n → K) (hm : ∀ i j, m.get i j = F i j) (s : Fin (stripeCount L r n))
    (t : Fin (stripeDim L r n)) : (m.stripes s).get t = lane F s t := by
  cases L
  · exact hm s t
  · exact hm t s

theorem lane_mem {K : Type*} (P : K → Prop) (F : Fin r → Fin n → K) (h : ∀ i j, P (F i j)) (s : Fin (stripeCount L r n)) (t : Fin (stripeDim L r n)) :
    P (lane F s t) := by
  cases L
  · exact h s t
  · exact h t s

theorem sum_lane (F : Fin r → Fin n → ℝ) : ∑ s : Fin (stripeCount L r n), ∑ t : Fin (stripeDim L r n), lane F s t = ∑ i, ∑ j, F i j := by
  cases L
  · rfl
  · exact Finset.sum_comm

theorem lane_some (F : Fin r → Fin n → ℝ) (s : Fin (stripeCount L r n)) (t : Fin (stripeDim L r n)) :
    lane (fun i j => (some (F i j) : Option ℝ)) s t = some (lane F s t) := by
  cases L <;> rfl

/-- `Sum` of a matrix of non-negative numbers. -/
theorem matSum_range (hp : 1 ≤ p) (h : RoundsInRange p emin Ω fl) (tb : RTree (batchSize (stripeDim L r n) false)) (ts : RTree (stripeDim L r n + 1))
    (htb : tb.Valid) (hts : ts.Valid) (m : Mat c FR r n o L pk) (F : Fin r → Fin n → ℝ) (hm : ∀ i j, m.get i j = (some (F i j) : Option ℝ))
    (hF : ∀ i j, IsRFloat p emin (F i j)) (hF0 : ∀ i j, 0 ≤ F i j)
    (hS : (1 + (2 : ℝ) ^ (-(p : ℤ))) ^ (stripeDim L r n - 1 + (stripeCount L r n - 1)) * ∑ i, ∑ j, F i j ≤ Ω) :
    ∃ T, matSum fl tb ts m = (some T : Option ℝ) ∧ IsRFloat p emin T ∧
      (1 - (2 : ℝ) ^ (-(p : ℤ))) ^ (stripeDim L r n - 1 + (stripeCount L r n - 1)) * ∑ i, ∑ j, F i j ≤ T ∧
      T ≤ (1 + (2 : ℝ) ^ (-(p : ℤ))) ^ (stripeDim L r n - 1 + (stripeCount L r n - 1)) * ∑ i, ∑ j, F i j := by
  have hu0 : 0 < (2 : ℝ) ^ (-(p : ℤ)) := two_zpow_pos _
  have hl : ∀ s t, (m.stripes s).get t = (some (lane F s t) : Option ℝ) := fun s t => by
    rw [get_lane m _ hm, lane_some]
  have hl0 : ∀ s t, 0 ≤ lane (L := L) F s t := lane_mem (fun x => 0 ≤ x) F hF0
  have hlr : ∀ s t, IsRFloat p emin (lane (L := L) F s t) := lane_mem (fun x => IsRFloat p emin x) F hF
  rw [← sum_lane (L := L) F] at hS ⊢
  refine loop_range hp h (fun s => sum fl tb ts (m.stripes s)) (fun s => ∑ t, lane F s t) (fun s => Finset.sum_nonneg fun t _ => hl0 s t) hS fun s => ?_
  refine sum_range hp h tb ts htb hts (m.stripes s) (lane F s) (hl s) (hlr s) (hl0 s) (le_trans ?_ hS)
  have h1 : ∑ t, lane F s t ≤ ∑ s : Fin (stripeCount L r n), ∑ t, lane F s t :=
    Finset.single_le_sum (f := fun s => ∑ t, lane F s t) (fun s _ => Finset.sum_nonneg fun t _ => hl0 s t) (Finset.mem_univ s)
  have h2 : (1 + (2 : ℝ) ^ (-(p : ℤ))) ^ (stripeDim L r n - 1) ≤ (1 + (2 : ℝ) ^ (-(p : ℤ))) ^ (stripeDim L r n - 1 + (stripeCount L r n - 1)) :=
    pow_le_pow_right₀ (by linarith) (by omega)
  exact mul_le_mul h2 h1 (Finset.sum_nonneg fun t _ => hl0 s t) (pow_nonneg (by linarith) _)

private theorem final_arith' {u η a A x y : ℝ} (hu0 : 0 ≤ u) (hu1 : u ≤ 1) {N : ℝ} (hlo : a * N ≤ x) (hup : x ≤ A * N) (hx0 : 0 ≤ x) (hr : |y - x| ≤ u * |x| + η) :
    a * (1 - u) * N - η ≤ y ∧ y ≤ A * (1 + u) * N + η := by
  rw [abs_of_nonneg hx0] at hr
  have h1 := (abs_le.1 hr).1
  have h2 := (abs_le.1 hr).2
  have h3 := mul_le_mul_of_nonneg_right hlo (by linarith : 0 ≤ 1 - u)
  have h4 := mul_le_mul_of_nonneg_right hup (by linarith : 0 ≤ 1 + u)
  constructor <;> linarith

/-- Scaling by the largest magnitude, squaring, summing, the root and scaling back. -/
theorem scaled_norm {ι : Type*} [Fintype ι] (hcard : Fintype.card ι = dim) (hp : 3 ≤ p) (h : RoundsInRange p emin Ω fl)
    (hfmt : (dim : ℝ) * ((2 : ℝ) ^ emin / 2) * 4 ^ p ≤ (2 : ℝ) ^ (-(p : ℤ))) (hΩ : 2 * (dim : ℝ) * (1 + (2 : ℝ) ^ (-(p : ℤ))) ^ dim ≤ Ω)
    (x : ι → ℝ) (M : ℝ) (hM0 : 0 < M) (hM : ∀ i, |x i| ≤ M) (hM1 : ∃ i, M = |x i|)
    (hN : (1 + (2 : ℝ) ^ (-(p : ℤ))) ^ (dim + 3) * Real.sqrt (∑ i, x i ^ 2) ≤ Ω) :
    ∃ y s : ι → ℝ, (∀ i, fl (x i / M) = some (y i)) ∧ (∀ i, fl (y i * y i) = some (s i)) ∧ (∀ i, IsRFloat p emin (s i)) ∧ (∀ i, 0 ≤ s i) ∧
      (1 + (2 : ℝ) ^ (-(p : ℤ))) ^ (dim - 1) * ∑ i, s i ≤ Ω ∧
      ∀ T, IsRFloat p emin T → (1 - (2 : ℝ) ^ (-(p : ℤ))) ^ (dim - 1) * ∑ i, s i ≤ T → T ≤ (1 + (2 : ℝ) ^ (-(p : ℤ))) ^ (dim - 1) * ∑ i, s i →
        ∃ R, op fl (· * ·) (Option.bind (some T) fun q => fl (Real.sqrt q)) (some M) = (some R : Option ℝ) ∧
          (1 - 6 * (2 : ℝ) ^ (-(p : ℤ))) * (1 - (2 : ℝ) ^ (-(p : ℤ))) ^ (dim + 1) * Real.sqrt (∑ i, x i ^ 2) - (2 : ℝ) ^ emin / 2 ≤ R ∧
          R ≤ (1 + (2 : ℝ) ^ (-(p : ℤ))) ^ (dim + 4) * Real.sqrt (∑ i, x i ^ 2) + (2 : ℝ) ^ emin / 2 := by
  obtain ⟨i0, hi0⟩ := hM1
  have hu0 := two_zpow_pos (-(p : ℤ))
  have hu8 : (2 : ℝ) ^ (-(p : ℤ)) ≤ 1 / 8 := by
    have : (2 : ℝ) ^ (-(p : ℤ)) ≤ (2 : ℝ) ^ (-3 : ℤ) := zpow_le_zpow_right₀ (by norm_num) (by omega)
    norm_num at this ⊢
    exact this
  have hdim : 1 ≤ dim := by rw [← hcard]; exact Fintype.card_pos_iff.2 ⟨i0⟩
  have h1Ω : 1 ≤ Ω := by
    have : (1 : ℝ) ≤ (1 + (2 : ℝ) ^ (-(p : ℤ))) ^ dim := one_le_pow₀ (by linarith)
    have : (1 : ℝ) ≤ dim := by exact_mod_cast hdim
    nlinarith
  have hz1 : ∀ i, |x i / M| ≤ 1 := fun i => by rw [abs_div, abs_of_pos hM0]; exact (div_le_one hM0).2 (hM i)
  have hex : ∀ i, ∃ y, fl (x i / M) = some y := fun i => h.finite _ ((hz1 i).trans h1Ω)
  choose y hy using hex
  obtain ⟨s, hs, fs, hs0, hSΩ, hT⟩ := root_range hcard hp h hfmt hΩ (fun i => x i / M) y hy hz1
    ⟨i0, by rw [abs_div, abs_of_pos hM0, ← hi0, div_self hM0.ne']; linarith⟩
  refine ⟨y, s, hy, hs, fs, hs0, hSΩ, fun T fT lo up => ?_⟩
  obtain ⟨Ln, hL, -, Llo, Lup⟩ := hT T fT lo up
  have e : Real.sqrt (∑ i, (x i / M) ^ 2) * M = Real.sqrt (∑ i, x i ^ 2) := by
    have : ∑ i, x i ^ 2 = (∑ i, (x i / M) ^ 2) * M ^ 2 := by
      rw [Finset.sum_mul]
      refine Finset.sum_congr rfl fun i _ => ?_
      rw [div_pow, div_mul_cancel₀ _ (pow_ne_zero 2 hM0.ne')]
    rw [this, Real.sqrt_mul (Finset.sum_nonneg fun i _ => sq_nonneg _), Real.sqrt_sq hM0.le]
  have l1 := mul_le_mul_of_nonneg_right Llo hM0.le
  have l2 := mul_le_mul_of_nonneg_right Lup hM0.le
  rw [mul_assoc, e] at l1 l2
  have hLM : 0 ≤ Ln * M := le_trans (mul_nonneg (mul_nonneg (by linarith) (pow_nonneg (by linarith) _)) (Real.sqrt_nonneg _)) l1
  obtain ⟨R, hR⟩ := h.finite (Ln * M) (by rw [abs_of_nonneg hLM]; linarith)
  refine ⟨R, ?_, ?_⟩
  · change op fl (· * ·) (fl (Real.sqrt T)) (some M) = _
    rw [hL]
    exact hR
  · have := final_arith' hu0.le (by linarith) l1 l2 hLM (h.err (by omega) hR)
    rw [mul_assoc (1 - 6 * (2 : ℝ) ^ (-(p : ℤ))), ← pow_succ, ← pow_succ] at this
    exact this

end Rg
end Mathter
