import Verif.Model.RoundedSVD
import Verif.Lemmas.SVD
import Verif.Lemmas.RoundedNear
import Verif.Lemmas.RoundedQR

/-!
# Lemmas about rounded plane rotations
-/

namespace Mathter.Fl
open Mathter Mathter.Props
variable {r n m : ℕ} {fl : ℝ → ℝ} {u : ℝ}

theorem near_ps (h : Rounding fl u) {f : ℝ → ℝ → ℝ → ℝ → ℝ} (hf : IsProdSum fl f) {k l : ℕ}
    {a a' A b b' B c c' C d d' D : ℝ} (ha : Near u k a a' A) (hb : Near u l b b' B) (hc : Near u k c c' C) (hd : Near u l d d' D) :
    Near u (k + l + 2) (f a b c d) (a' * b' + c' * d') (A * B + C * D) := by
  have p1 := ha.prod h hb
  have p2 := hc.prod h hd
  rcases hf a b c d with e | e | e <;> rw [e]
  · exact ((p1.round h).add (p2.round h)).round h
  · exact ((p1.mono h (Nat.le_succ _)).add (p2.round h)).round h
  · exact ((p1.round h).add (p2.mono h (Nat.le_succ _))).round h

/-- A vector that vanishes outside of two places, where it is bounded by a symmetric combination of `x p` and `x q`. -/
theorem norm2_pair {x d : Fin n → ℝ} {p q : Fin n} (hpq : p ≠ q) {a b e : ℝ} (ha : 0 ≤ a) (hb : 0 ≤ b) (he : a + b ≤ e)
    (hd : ∀ i, i ≠ p → i ≠ q → d i = 0) (hp : |d p| ≤ a * |x p| + b * |x q|) (hq : |d q| ≤ a * |x q| + b * |x p|) : norm2 d ≤ e * norm2 x := by
  have he0 : 0 ≤ e := by linarith
  have h1 : ∑ i, d i ^ 2 = d p ^ 2 + d q ^ 2 := by
    rw [← Finset.sum_pair (f := fun i => d i ^ 2) hpq]
    symm
    apply Finset.sum_subset (Finset.subset_univ _)
    intro k _ hk
    simp only [Finset.mem_insert, Finset.mem_singleton, not_or] at hk
    rw [hd k hk.1 hk.2]; norm_num
  have h2 : x p ^ 2 + x q ^ 2 ≤ ∑ i, x i ^ 2 := by
    rw [← Finset.sum_pair (f := fun i => x i ^ 2) hpq]
    exact Finset.sum_le_sum_of_subset_of_nonneg (Finset.subset_univ _) fun i _ _ => sq_nonneg _
  have h3 : d p ^ 2 + d q ^ 2 ≤ (a + b) ^ 2 * (x p ^ 2 + x q ^ 2) := by
    have e1 : d p ^ 2 ≤ (a * |x p| + b * |x q|) ^ 2 := by rw [← sq_abs (d p)]; exact pow_le_pow_left₀ (abs_nonneg _) hp 2
    have e2 : d q ^ 2 ≤ (a * |x q| + b * |x p|) ^ 2 := by rw [← sq_abs (d q)]; exact pow_le_pow_left₀ (abs_nonneg _) hq 2
    have e3 : (a + b) ^ 2 * (x p ^ 2 + x q ^ 2) - ((a * |x p| + b * |x q|) ^ 2 + (a * |x q| + b * |x p|) ^ 2) = 2 * (a * b) * (|x p| - |x q|) ^ 2 := by
      rw [← sq_abs (x p), ← sq_abs (x q)]; ring
    have := mul_nonneg (mul_nonneg two_pos.le (mul_nonneg ha hb)) (sq_nonneg (|x p| - |x q|))
    linarith
  have h4 : (a + b) ^ 2 * (x p ^ 2 + x q ^ 2) ≤ e ^ 2 * ∑ i, x i ^ 2 :=
    mul_le_mul (pow_le_pow_left₀ (by linarith) he 2) h2 (by positivity) (by positivity)
  unfold norm2
  rw [h1]
  refine (Real.sqrt_le_sqrt (h3.trans h4)).trans (le_of_eq ?_)
  rw [Real.sqrt_mul (by positivity), Real.sqrt_sq he0]

/-- Relative error of applying a rotation whose cosine and sine have the length `1` up to `η`. -/
noncomputable def rotErr (u η : ℝ) : ℝ := 3 / 2 * ((1 + u) ^ 3 * (1 + η) - 1)

/-- `(c, s)` are cosine and sine up to `η`. -/
def NearUnit (η c s : ℝ) : Prop := |Real.sqrt (c ^ 2 + s ^ 2) - 1| ≤ η

/-- The coefficients of the error of one rotation. -/
theorem rot_coeff (h : Rounding fl u) {η c s : ℝ} (hη : η < 1) (hcs : NearUnit η c s) :
    0 < Real.sqrt (c ^ 2 + s ^ 2) ∧ ((1 + u) ^ 3 - 1 + |1 - 1 / Real.sqrt (c ^ 2 + s ^ 2)|) * |c| + ((1 + u) ^ 3 - 1 + |1 - 1 / Real.sqrt (c ^ 2 + s ^ 2)|) * |s| ≤
      rotErr u η := by
  unfold NearUnit at hcs
  have hsum : |c| + |s| ≤ 3 / 2 * Real.sqrt (c ^ 2 + s ^ 2) := by
    have e : 3 / 2 * Real.sqrt (c ^ 2 + s ^ 2) = Real.sqrt ((3 / 2) ^ 2 * (c ^ 2 + s ^ 2)) := by
      rw [Real.sqrt_mul (by positivity), Real.sqrt_sq (by norm_num)]
    rw [e]
    apply Real.le_sqrt_of_sq_le
    rw [← sq_abs c, ← sq_abs s]
    nlinarith [sq_nonneg (|c| - |s|), sq_nonneg |c|, sq_nonneg |s|]
  generalize Real.sqrt (c ^ 2 + s ^ 2) = t at *
  have ht : 0 < t := by have := (abs_le.1 hcs).1; linarith
  refine ⟨ht, ?_⟩
  have hg := h.one_le 3
  have hk : 0 ≤ (1 + u) ^ 3 - 1 + |1 - 1 / t| := by have := abs_nonneg (1 - 1 / t); linarith
  rw [← mul_add]
  refine (mul_le_mul_of_nonneg_left hsum hk).trans ?_
  have e1 : |1 - 1 / t| * t = |t - 1| := by
    have e : t - 1 = (1 - 1 / t) * t := by field_simp
    rw [e, abs_mul, abs_of_pos ht]
  have e2 : ((1 + u) ^ 3 - 1 + |1 - 1 / t|) * (3 / 2 * t) = 3 / 2 * (((1 + u) ^ 3 - 1) * t + |t - 1|) := by rw [← e1]; ring
  rw [e2]
  unfold rotErr
  have h3 : t ≤ 1 + η := by have := (abs_le.1 hcs).2; linarith
  have := mul_le_mul_of_nonneg_left h3 (by linarith : 0 ≤ (1 + u) ^ 3 - 1)
  linarith

/-- From the error of the combination `x * c + y * s` to the one with the exact rotation. -/
theorem scale_err {x c y s z v t g : ℝ} (hv : v = x * c + y * s) (hz : |z - v| ≤ g * (|x| * |c| + |y| * |s|)) :
    |z - (x * (c / t) + y * (s / t))| ≤ (g + |1 - 1 / t|) * |c| * |x| + (g + |1 - 1 / t|) * |s| * |y| := by
  have e : z - (x * (c / t) + y * (s / t)) = (z - v) + (1 - 1 / t) * v := by rw [hv]; ring
  have h1 : |v| ≤ |x| * |c| + |y| * |s| := by
    rw [hv]; refine (abs_add_le _ _).trans ?_; rw [abs_mul, abs_mul]
  rw [e]
  refine (abs_add_le _ _).trans ?_
  rw [abs_mul]
  have := mul_le_mul_of_nonneg_left h1 (abs_nonneg (1 - 1 / t))
  linarith

theorem near_unit_mul (h : Rounding fl u) {det x : ℝ} (hd : |det| = 1) : Near u 1 (fl (det * x)) (det * x) |x| := by
  have := (Near.exact (u := u) (det * x)).round h
  rwa [abs_mul, hd, one_mul] at this

/-- One column of `GivensRotateLeft`. -/
theorem givensLeft_err (h : Rounding fl u) {ps pd : ℝ → ℝ → ℝ → ℝ → ℝ} (hps : IsProdSum fl ps) (hpd : IsProdDiff fl pd) {η c s det : ℝ} (hη : η < 1)
    (hcs : NearUnit η c s) (hd : |det| = 1) (M : Matrix (Fin r) (Fin n) ℝ) (p q : Fin r) (hpq : p ≠ q) (j : Fin n) :
    norm2 (fun i => givensLeft fl ps pd M p q c s det i j -
      (embed2 p q (rot2 (c / Real.sqrt (c ^ 2 + s ^ 2)) (s / Real.sqrt (c ^ 2 + s ^ 2)) det) * M) i j) ≤ rotErr u η * norm2 fun i => M i j := by
  obtain ⟨ht, hco⟩ := rot_coeff h hη hcs
  generalize Real.sqrt (c ^ 2 + s ^ 2) = t at *
  have hk : 0 ≤ (1 + u) ^ 3 - 1 + |1 - 1 / t| := by have := abs_nonneg (1 - 1 / t); linarith [h.one_le 3]
  refine norm2_pair hpq (mul_nonneg hk (abs_nonneg c)) (mul_nonneg hk (abs_nonneg s)) hco ?_ ?_ ?_
  · intro i h1 h2
    rw [embed2_mul _ p q hpq]
    simp [givensLeft, h1, h2]
  · rw [embed2_mul _ p q hpq]
    simp only [givensLeft, Matrix.of_apply, if_neg hpq, if_true]
    have n1 := ((Near.exact (u := u) (M p j)).mono h (Nat.zero_le 1)).pd h hpd (Near.exact c) (near_unit_mul h hd (x := M q j)) (Near.exact s)
    have := scale_err (x := M p j) (c := c) (y := -(det * M q j)) (s := s) (t := t) (g := (1 + u) ^ 3 - 1)
      (show M p j * c - det * M q j * s = _ by ring) (by
      rw [abs_neg, abs_mul, hd, one_mul]; exact n1.err)
    rw [abs_neg, abs_mul, hd, one_mul] at this
    refine le_of_eq_of_le ?_ this
    congr 1
    simp [rot2]; ring
  · rw [embed2_mul _ p q hpq]
    simp only [givensLeft, Matrix.of_apply, if_true]
    have n1 := near_ps h hps (near_unit_mul h hd (x := M q j)) (Near.exact c) ((Near.exact (u := u) (M p j)).mono h (Nat.zero_le 1)) (Near.exact s)
    have := scale_err (x := det * M q j) (c := c) (y := M p j) (s := s) (t := t) (g := (1 + u) ^ 3 - 1) rfl (by
      rw [abs_mul, hd, one_mul]; exact n1.err)
    rw [abs_mul, hd, one_mul] at this
    refine le_of_eq_of_le ?_ this
    congr 1
    simp [rot2]; ring

/-- One row of `GivensRotateRight`. -/
theorem givensRight_err (h : Rounding fl u) {ps pd : ℝ → ℝ → ℝ → ℝ → ℝ} (hps : IsProdSum fl ps) (hpd : IsProdDiff fl pd) {η c s det : ℝ} (hη : η < 1)
    (hcs : NearUnit η c s) (hd : |det| = 1) (M : Matrix (Fin r) (Fin n) ℝ) (p q : Fin n) (hpq : p ≠ q) (i : Fin r) :
    norm2 (fun j => givensRight fl ps pd M p q c s det i j -
      (M * embed2 p q (rot2 (c / Real.sqrt (c ^ 2 + s ^ 2)) (s / Real.sqrt (c ^ 2 + s ^ 2)) det)) i j) ≤ rotErr u η * norm2 (M i) := by
  obtain ⟨ht, hco⟩ := rot_coeff h hη hcs
  generalize Real.sqrt (c ^ 2 + s ^ 2) = t at *
  have hk : 0 ≤ (1 + u) ^ 3 - 1 + |1 - 1 / t| := by have := abs_nonneg (1 - 1 / t); linarith [h.one_le 3]
  refine norm2_pair hpq (mul_nonneg hk (abs_nonneg c)) (mul_nonneg hk (abs_nonneg s)) hco ?_ ?_ ?_
  · intro j h1 h2
    rw [mul_embed2 _ p q hpq]
    simp [givensRight, h1, h2]
  · rw [mul_embed2 _ p q hpq]
    simp only [givensRight, Matrix.of_apply, if_neg hpq, if_true]
    have n1 := (near_ps h hps (Near.exact (u := u) (M i p)) (Near.exact c) (Near.exact (M i q)) (Near.exact s)).mono h (by norm_num : _ ≤ 3)
    have := scale_err (x := M i p) (c := c) (y := M i q) (s := s) (t := t) rfl n1.err
    refine le_of_eq_of_le ?_ this
    congr 1
  · rw [mul_embed2 _ p q hpq]
    simp only [givensRight, Matrix.of_apply, if_true]
    have n0 := (Near.exact (u := u) (M i q)).pd h hpd (Near.exact c) (Near.exact (M i p)) (Near.exact s)
    have n1 := ((Near.exact (u := u) det).prod h n0).round h
    rw [hd, one_mul] at n1
    have := scale_err (x := det * M i q) (c := c) (y := -(det * M i p)) (s := s) (t := t) (g := (1 + u) ^ 3 - 1)
      (show det * (M i q * c - M i p * s) = _ by ring) (by
      rw [abs_neg, abs_mul, abs_mul, hd, one_mul, one_mul]; exact n1.err)
    rw [abs_neg, abs_mul, abs_mul, hd, one_mul, one_mul] at this
    refine le_of_eq_of_le ?_ this
    congr 1
    simp [rot2]; ring

/-! ## Cosines and sines -/

/-- Deviation of the length of a normalised pair from one. -/
noncomputable def unitErr (u : ℝ) : ℝ := (1 + u) / (1 - u) ^ 2 - 1

theorem fl_le (h : Rounding fl u) {x : ℝ} (hx : 0 ≤ x) : (1 - u) * x ≤ fl x ∧ fl x ≤ (1 + u) * x := by
  have := abs_le.1 (h.err x)
  rw [abs_of_nonneg hx] at this
  constructor <;> linarith

theorem abs_fl_le (h : Rounding fl u) (x : ℝ) : (1 - u) * |x| ≤ |fl x| ∧ |fl x| ≤ (1 + u) * |x| := by
  have := abs_le.1 ((abs_abs_sub_abs_le_abs_sub (fl x) x).trans (h.err x))
  constructor <;> linarith

theorem unitErr_nonneg (h : Rounding fl u) (hu1 : u < 1) : 0 ≤ unitErr u := by
  unfold unitErr
  have hu := h.u_nonneg
  rw [sub_nonneg, le_div_iff₀ (by have : 0 < 1 - u := by linarith
                                  positivity)]
  nlinarith

theorem near_unit_of_mem (h : Rounding fl u) (hu1 : u < 1) {c s : ℝ} (hlo : (1 - u) / (1 + u) ^ 2 ≤ Real.sqrt (c ^ 2 + s ^ 2))
    (hhi : Real.sqrt (c ^ 2 + s ^ 2) ≤ (1 + u) / (1 - u) ^ 2) : NearUnit (unitErr u) c s := by
  have hu := h.u_nonneg
  have h1 : 0 < 1 - u := by linarith
  unfold NearUnit unitErr
  rw [abs_le]
  refine ⟨?_, by linarith⟩
  have e : (1 - u) / (1 + u) ^ 2 * ((1 + u) / (1 - u) ^ 2) = 1 / ((1 - u) * (1 + u)) := by field_simp
  have e2 : 1 ≤ 1 / ((1 - u) * (1 + u)) := by rw [le_div_iff₀ (by positivity)]; nlinarith
  set x := (1 - u) / (1 + u) ^ 2
  set y := (1 + u) / (1 - u) ^ 2
  have hx : 0 < x := by positivity
  have hxy : 1 ≤ x * y := by rw [e]; exact e2
  have : 2 ≤ x + y := by nlinarith [sq_nonneg (x - y), sq_nonneg (x + y - 2), (by positivity : 0 < y)]
  linarith

theorem ps_sq (h : Rounding fl u) (hu1 : u < 1) {ps : ℝ → ℝ → ℝ → ℝ → ℝ} (hps : IsProdSum fl ps) (a b : ℝ) :
    (1 - u) ^ 2 * (a ^ 2 + b ^ 2) ≤ ps a a b b ∧ ps a a b b ≤ (1 + u) ^ 2 * (a ^ 2 + b ^ 2) := by
  have hu := h.u_nonneg
  have h1 : 0 < 1 - u := by linarith
  have ha := fl_le h (mul_self_nonneg a)
  have hb := fl_le h (mul_self_nonneg b)
  have ha0 := mul_self_nonneg a
  have hb0 := mul_self_nonneg b
  have hA : 0 ≤ fl (a * a) := (mul_nonneg h1.le ha0).trans ha.1
  have hB : 0 ≤ fl (b * b) := (mul_nonneg h1.le hb0).trans hb.1
  have hul := mul_nonneg hu ha0
  have hul' := mul_nonneg hu hb0
  have key : ∀ y, 0 ≤ y → (1 - u) * (a * a + b * b) ≤ y → y ≤ (1 + u) * (a * a + b * b) →
      (1 - u) ^ 2 * (a ^ 2 + b ^ 2) ≤ fl y ∧ fl y ≤ (1 + u) ^ 2 * (a ^ 2 + b ^ 2) := by
    intro y hy0 hl hr
    have hy := fl_le h hy0
    have t1 := mul_le_mul_of_nonneg_left hl h1.le
    have t2 := mul_le_mul_of_nonneg_left hr (by linarith : 0 ≤ 1 + u)
    constructor
    · calc (1 - u) ^ 2 * (a ^ 2 + b ^ 2) = (1 - u) * ((1 - u) * (a * a + b * b)) := by ring
        _ ≤ fl y := t1.trans hy.1
    · calc fl y ≤ (1 + u) * ((1 + u) * (a * a + b * b)) := hy.2.trans t2
        _ = _ := by ring
  rcases hps a a b b with e | e | e <;> rw [e] <;> apply key <;> linarith

/-- A pair divided by its rounded length. -/
theorem pair_unit (h : Rounding fl u) (hu1 : u < 1) {ps : ℝ → ℝ → ℝ → ℝ → ℝ} (hps : IsProdSum fl ps) {a b : ℝ} (hab : a ≠ 0 ∨ b ≠ 0) :
    NearUnit (unitErr u) (fl (a / fl (Real.sqrt (ps a a b b)))) (fl (b / fl (Real.sqrt (ps a a b b)))) := by
  have hu := h.u_nonneg
  have h1 : 0 < 1 - u := by linarith
  have hN : 0 < a ^ 2 + b ^ 2 := by rcases hab with h | h <;> positivity
  obtain ⟨hl, hr⟩ := ps_sq h hu1 hps a b
  set t := Real.sqrt (a ^ 2 + b ^ 2) with ht
  have ht0 : 0 < t := Real.sqrt_pos.2 hN
  have hs1 : (1 - u) * t ≤ Real.sqrt (ps a a b b) := by
    rw [ht, ← Real.sqrt_sq h1.le, ← Real.sqrt_mul (by positivity)]
    exact Real.sqrt_le_sqrt hl
  have hs2 : Real.sqrt (ps a a b b) ≤ (1 + u) * t := by
    rw [ht, ← Real.sqrt_sq (by linarith : 0 ≤ 1 + u), ← Real.sqrt_mul (by positivity)]
    exact Real.sqrt_le_sqrt hr
  have hf := fl_le h (Real.sqrt_nonneg (ps a a b b))
  have hsc1 : (1 - u) ^ 2 * t ≤ fl (Real.sqrt (ps a a b b)) := by
    have := mul_le_mul_of_nonneg_left hs1 h1.le
    refine le_trans (le_of_eq (by ring)) (this.trans hf.1)
  have hsc2 : fl (Real.sqrt (ps a a b b)) ≤ (1 + u) ^ 2 * t := by
    have := mul_le_mul_of_nonneg_left hs2 (by linarith : 0 ≤ 1 + u)
    exact hf.2.trans (this.trans (le_of_eq (by ring)))
  generalize fl (Real.sqrt (ps a a b b)) = sc at *
  have hsc : 0 < sc := lt_of_lt_of_le (by positivity) hsc1
  have hc := abs_fl_le h (a / sc)
  have hd := abs_fl_le h (b / sc)
  have e : ∀ k, 0 ≤ k → k * t / sc = Real.sqrt ((k * |a / sc|) ^ 2 + (k * |b / sc|) ^ 2) := by
    intro k hk
    rw [mul_pow, mul_pow, sq_abs, sq_abs, div_pow, div_pow, ← mul_add, ← add_div, Real.sqrt_mul (by positivity), Real.sqrt_div (by positivity),
      Real.sqrt_sq hk, Real.sqrt_sq hsc.le, mul_div_assoc]
  apply near_unit_of_mem h hu1
  · calc (1 - u) / (1 + u) ^ 2 ≤ (1 - u) * t / sc := by
          rw [div_le_div_iff₀ (by positivity) hsc]
          have := mul_le_mul_of_nonneg_left hsc2 h1.le
          linarith
      _ = Real.sqrt (((1 - u) * |a / sc|) ^ 2 + ((1 - u) * |b / sc|) ^ 2) := e _ h1.le
      _ ≤ _ := by
          rw [← sq_abs (fl (a / sc)), ← sq_abs (fl (b / sc))]
          exact Real.sqrt_le_sqrt (add_le_add (pow_le_pow_left₀ (by positivity) hc.1 2) (pow_le_pow_left₀ (by positivity) hd.1 2))
  · calc Real.sqrt (fl (a / sc) ^ 2 + fl (b / sc) ^ 2) ≤ Real.sqrt (((1 + u) * |a / sc|) ^ 2 + ((1 + u) * |b / sc|) ^ 2) := by
          rw [← sq_abs (fl (a / sc)), ← sq_abs (fl (b / sc))]
          exact Real.sqrt_le_sqrt (add_le_add (pow_le_pow_left₀ (by positivity) hc.2 2) (pow_le_pow_left₀ (by positivity) hd.2 2))
      _ = (1 + u) * t / sc := (e _ (by linarith)).symm
      _ ≤ _ := by
          rw [div_le_div_iff₀ hsc (by positivity)]
          have := mul_le_mul_of_nonneg_left hsc1 (by linarith : 0 ≤ 1 + u)
          linarith

/-- `MinimizeDiagonalizingRotation` does not round. -/
theorem minimizeRotation_eq (h : Rounding fl u) (h1 : fl 1 = 1) {c s : ℝ} (hc : fl c = c) (hs : fl s = s) (hcs : c ≠ 0 ∨ s ≠ 0) :
    (minimizeRotation fl c s).1 ^ 2 + (minimizeRotation fl c s).2 ^ 2 = c ^ 2 + s ^ 2 ∧ |(minimizeRotation fl c s).2| ≤ (minimizeRotation fl c s).1 := by
  have key : ∀ a b : ℝ, fl a = a → fl b = b → |b| ≤ |a| → a ≠ 0 → fl (fl (a / |a|) * a) = |a| ∧ |fl (fl (a / |a|) * b)| = |b| := by
    intro a b ha hb hab ha0
    rcases lt_or_gt_of_ne ha0 with hneg | hpos
    · rw [abs_of_neg hneg]
      have e : a / -a = -1 := by field_simp
      rw [e, h.odd, h1, neg_one_mul, neg_one_mul, h.odd, h.odd, ha, hb, abs_neg]
      exact ⟨rfl, rfl⟩
    · rw [abs_of_pos hpos, div_self ha0, h1, one_mul, one_mul, ha, hb]
      exact ⟨rfl, rfl⟩
  unfold minimizeRotation
  by_cases hlt : |c| < |s|
  · simp only [if_pos hlt]
    have hs0 : -s ≠ 0 := by intro h0; rw [neg_eq_zero] at h0; rw [h0, abs_zero] at hlt; exact absurd hlt (not_lt.2 (abs_nonneg _))
    obtain ⟨e1, e2⟩ := key (-s) c (by rw [h.odd, hs]) hc (by rw [abs_neg]; exact hlt.le) hs0
    rw [abs_neg] at e1 e2
    rw [e1, e2, ← sq_abs (fl _), e2, sq_abs, sq_abs]
    exact ⟨by ring, hlt.le⟩
  · simp only [if_neg hlt]
    have hle := not_lt.1 hlt
    have hc0 : c ≠ 0 := by
      rintro rfl
      rw [abs_zero, abs_nonpos_iff] at hle
      simp [hle] at hcs
    obtain ⟨e1, e2⟩ := key c s hc hs hle hc0
    rw [e1, e2, ← sq_abs (fl _), e2, sq_abs, sq_abs]
    exact ⟨rfl, hle⟩

theorem ne_zero_of_nearUnit {η c s : ℝ} (hη : η < 1) (hcs : NearUnit η c s) : c ≠ 0 ∨ s ≠ 0 := by
  by_contra h0
  simp only [not_or, not_not] at h0
  unfold NearUnit at hcs
  rw [h0.1, h0.2] at hcs
  simp at hcs
  linarith

/-- The rotation of one pair of columns. -/
theorem hermitian_unit (h : Rounding fl u) (h1 : fl 1 = 1) (hη : unitErr u < 1) (hu1 : u < 1) {ps : ℝ → ℝ → ℝ → ℝ → ℝ} (hps : IsProdSum fl ps)
    (hyp : ℝ → ℝ → ℝ → ℝ) (neg : Bool) (a11 aoff a22 : ℝ) :
    let v0 := diagonalizeHermitian fl ps hyp neg a11 aoff a22
    let v := minimizeRotation fl v0.1 v0.2
    NearUnit (unitErr u) v.1 v.2 ∧ |v.2| ≤ v.1 := by
  have hz : fl 0 = 0 := by have := h.odd 0; rw [neg_zero] at this; linarith
  have h0 : NearUnit (unitErr u) (diagonalizeHermitian fl ps hyp neg a11 aoff a22).1 (diagonalizeHermitian fl ps hyp neg a11 aoff a22).2 ∧
      fl (diagonalizeHermitian fl ps hyp neg a11 aoff a22).1 = (diagonalizeHermitian fl ps hyp neg a11 aoff a22).1 ∧
      fl (diagonalizeHermitian fl ps hyp neg a11 aoff a22).2 = (diagonalizeHermitian fl ps hyp neg a11 aoff a22).2 := by
    unfold diagonalizeHermitian
    by_cases ha : aoff = 0
    · rw [if_pos ha]
      refine ⟨?_, h1, hz⟩
      unfold NearUnit
      simpa using unitErr_nonneg h hu1
    · rw [if_neg ha]
      exact ⟨pair_unit h hu1 hps (Or.inr one_ne_zero), h.idem _, h.idem _⟩
  intro v0 v
  obtain ⟨e1, e2⟩ := minimizeRotation_eq h h1 h0.2.1 h0.2.2 (ne_zero_of_nearUnit hη h0.1)
  refine ⟨?_, e2⟩
  unfold NearUnit
  rw [e1]
  exact h0.1

/-! ## The loops of the one-sided algorithm -/

theorem rot2_orthogonal {c s : ℝ} (h : c ^ 2 + s ^ 2 = 1) (det : ℝ) (hd : |det| = 1) : (rot2 c s det).transpose * rot2 c s det = 1 := by
  have hd2 : det ^ 2 = 1 := by rw [← sq_abs, hd, one_pow]
  ext i j
  fin_cases i <;> fin_cases j <;> simp [rot2, Matrix.mul_apply, Fin.sum_univ_two]
  · linarith
  · ring
  · ring
  · have e : det * s * (det * s) + det * c * (det * c) = det ^ 2 * (c ^ 2 + s ^ 2) := by ring
    rw [e, hd2, h, one_mul]

theorem rotation_orthogonal {η c s : ℝ} (hη : η < 1) (hcs : NearUnit η c s) {det : ℝ} (hd : |det| = 1) (p q : Fin n) (hpq : p ≠ q) :
    (embed2 p q (rot2 (c / Real.sqrt (c ^ 2 + s ^ 2)) (s / Real.sqrt (c ^ 2 + s ^ 2)) det)).transpose *
      embed2 p q (rot2 (c / Real.sqrt (c ^ 2 + s ^ 2)) (s / Real.sqrt (c ^ 2 + s ^ 2)) det) = 1 := by
  have hN : 0 < c ^ 2 + s ^ 2 := by rcases ne_zero_of_nearUnit hη hcs with h | h <;> positivity
  have := embed2_unitary (𝕜 := ℝ) p q hpq (rot2 (c / Real.sqrt (c ^ 2 + s ^ 2)) (s / Real.sqrt (c ^ 2 + s ^ 2)) det) (by
    rw [Matrix.conjTranspose_eq_transpose_of_trivial]
    apply rot2_orthogonal _ det hd
    rw [div_pow, div_pow, Real.sq_sqrt hN.le, ← add_div, div_self hN.ne'])
  rwa [Matrix.conjTranspose_eq_transpose_of_trivial] at this

theorem mul_embed2_transpose (M : Matrix (Fin r) (Fin n) ℝ) (p q : Fin n) (hpq : p ≠ q) (c s : ℝ) (i : Fin r) (j : Fin n) :
    (M * embed2 p q (rot2 c s 1)) i j = (embed2 p q (rot2 c (-s) 1) * M.transpose) j i := by
  rw [mul_embed2 _ p q hpq, embed2_mul _ p q hpq]
  simp only [rot2, Matrix.transpose_apply, Matrix.of_apply, Matrix.cons_val', Matrix.cons_val_zero, Matrix.cons_val_one, Matrix.cons_val_fin_one, star_trivial]
  split_ifs <;> ring

/-- The working matrices after `k` rotations: `X` and `V` are what exact rotations with the product `P` would give, up to small errors. -/
structure OneErr (ε : ℝ) (A : Matrix (Fin r) (Fin (n + 1)) ℝ) (s : OneState ℝ r (n + 1)) (k : ℕ) (P : Matrix (Fin (n + 1)) (Fin (n + 1)) ℝ) : Prop where
  unit : P.transpose * P = 1
  X : ∀ i, norm2 (fun j => s.X i j - (P * A.transpose) j i) ≤ ((1 + ε) ^ k - 1) * norm2 (A i)
  V : ∀ j, norm2 (fun i => s.V i j - P i j) ≤ (1 + ε) ^ k - 1

theorem OneErr.mono {ε : ℝ} (hε : 0 ≤ ε) {A : Matrix (Fin r) (Fin (n + 1)) ℝ} {s : OneState ℝ r (n + 1)} {k l : ℕ} (hkl : k ≤ l)
    {P : Matrix (Fin (n + 1)) (Fin (n + 1)) ℝ} (h : OneErr ε A s k P) : OneErr ε A s l P := by
  have hp : (1 + ε) ^ k ≤ (1 + ε) ^ l := pow_le_pow_right₀ (by linarith) hkl
  exact ⟨h.unit, fun i => (h.X i).trans (mul_le_mul_of_nonneg_right (by linarith) (norm2_nonneg _)), fun j => (h.V j).trans (by linarith)⟩

theorem rotErr_nonneg (h : Rounding fl u) {η : ℝ} (hη : 0 ≤ η) : 0 ≤ rotErr u η := by
  unfold rotErr
  nlinarith [h.one_le 3]

theorem NearUnit.nonneg {η c s : ℝ} (h : NearUnit η c s) : 0 ≤ η := (abs_nonneg _).trans h

theorem OneErr.rotate (h : Rounding fl u) {ps pd : ℝ → ℝ → ℝ → ℝ → ℝ} (hps : IsProdSum fl ps) (hpd : IsProdDiff fl pd) {η c sn : ℝ} (hη : η < 1)
    (hcs : NearUnit η c sn) {A : Matrix (Fin r) (Fin (n + 1)) ℝ} {s : OneState ℝ r (n + 1)} {k : ℕ} {P : Matrix (Fin (n + 1)) (Fin (n + 1)) ℝ}
    (e : OneErr (rotErr u η) A s k P) (p q : Fin (n + 1)) (hpq : p ≠ q) :
    ∃ P, OneErr (rotErr u η) A ⟨givensRight fl ps pd s.X p q c sn 1, givensLeft fl ps pd s.V p q c (-sn) 1⟩ (k + 1) P := by
  have hε := rotErr_nonneg h hcs.nonneg
  have hcs' : NearUnit η c (-sn) := by unfold NearUnit at *; rwa [neg_sq]
  have hH := rotation_orthogonal hη hcs' abs_one p q hpq
  have hl := fun j => givensLeft_err h hps hpd hη hcs' abs_one s.V p q hpq j
  have hr := fun i => givensRight_err h hps hpd hη hcs abs_one s.X p q hpq i
  rw [neg_sq, neg_div] at hH hl
  simp only [mul_embed2_transpose _ p q hpq] at hr
  set H := embed2 p q (rot2 (c / Real.sqrt (c ^ 2 + sn ^ 2)) (-(sn / Real.sqrt (c ^ 2 + sn ^ 2))) 1)
  clear_value H
  refine ⟨H * P, ⟨?_, fun i => ?_, fun j => ?_⟩⟩
  · rw [Matrix.transpose_mul, Matrix.mul_assoc, ← Matrix.mul_assoc H.transpose, hH, Matrix.one_mul, e.unit]
  · rw [pow_succ]
    exact (step_col (M := s.X.transpose) (M' := (givensRight fl ps pd s.X p q c sn 1).transpose) (M0 := A.transpose) (N := norm2 (A i)) (j := i) hε hH e.unit (e.X i) le_rfl (hr i)).1
  · have := (step_col (M0 := 1) (N := 1) hε hH e.unit (by rw [Matrix.mul_one, mul_one]; exact e.V j) (norm2_one_col j).le (hl j)).1
    rw [pow_succ]
    simp only [mul_one] at this
    exact this

/-- Pairs `p < q` visited by one sweep. -/
theorem pairs_count {σ : Type*} {body : Fin n → Fin n → σ → σ} {s : σ} (Q : ℕ → σ → Prop) (k : ℕ) (h0 : Q k s)
    (hs : ∀ (k : ℕ) (p q : Fin n) (s : σ), p < q → Q k s → Q (k + 1) (body p q s)) :
    Q (k + n * (n - 1) / 2) (forUp n 0 (fun p s => forUp n (p.val + 1) (fun q s => body p q s) s) s) := by
  have e : ∑ p ∈ Finset.range n, (n - 1 - p) = n * (n - 1) / 2 := by rw [Finset.sum_range_reflect (fun p => p), Finset.sum_range_id]
  rw [← e]
  refine forUp_inv (fun l s => Q (k + ∑ p ∈ Finset.range l, (n - 1 - p)) s) (Nat.zero_le _) (by simpa using h0) fun p s _ hp => ?_
  have := forUp_inv (n := n) (lo := p.val + 1) (s := s) (body := fun q s => body p q s)
    (fun l s => p.val + 1 ≤ l → Q (k + ∑ p ∈ Finset.range p.val, (n - 1 - p) + (l - (p.val + 1))) s) p.isLt (fun _ => by simpa using hp) (by
      intro q s hq hQ _
      have := hs _ p q s hq (hQ hq)
      rwa [show q.val + 1 - (p.val + 1) = q.val - (p.val + 1) + 1 by omega]) p.isLt
  rw [Finset.sum_range_succ, show n - 1 - p.val = n - (p.val + 1) by omega]
  rwa [Nat.add_assoc] at this

theorem oneSweep_err (h : Rounding fl u) (h1 : fl 1 = 1) (hu1 : u < 1) (hη : unitErr u < 1) {ps pd : ℝ → ℝ → ℝ → ℝ → ℝ} (hps : IsProdSum fl ps)
    (hpd : IsProdDiff fl pd) (hyp : ℝ → ℝ → ℝ → ℝ) (dot : (Fin r → ℝ) → (Fin r → ℝ) → ℝ) (neg : ℕ → Fin (n + 1) → Fin (n + 1) → Bool) (t : ℕ)
    {A : Matrix (Fin r) (Fin (n + 1)) ℝ} {s : OneState ℝ r (n + 1)} {k : ℕ} (e : ∃ P, OneErr (rotErr u (unitErr u)) A s k P) :
    ∃ P, OneErr (rotErr u (unitErr u)) A (oneSweep fl ps pd hyp dot neg t s).1 (k + (n + 1) * n / 2) P := by
  refine pairs_count (fun k (s : OneState ℝ r (n + 1) × ℝ) => ∃ P, OneErr (rotErr u (unitErr u)) A s.1 k P) k e ?_
  rintro k p q s hpq ⟨P, hP⟩
  unfold oneStep
  simp only
  split
  · exact hP.rotate h hps hpd hη (hermitian_unit h h1 hη hu1 hps hyp (neg t p q) _ _ _).1 p q (ne_of_lt hpq)
  · exact ⟨P, hP.mono (rotErr_nonneg h (unitErr_nonneg h hu1)) (Nat.le_succ k)⟩

theorem jacobiLoop_count {σ : Type*} {sweep : ℕ → σ → σ × ℝ} (Q : ℕ → σ → Prop) (N : ℕ) (hQ : ∀ k t s, Q k s → Q (k + N) (sweep t s).1)
    (hm : ∀ k l s, k ≤ l → Q k s → Q l s) : ∀ (fuel k t : ℕ) (prev err : ℝ) (s : σ) (x : σ × ℝ), Q k s → jacobiLoop sweep fuel t prev err s = some x →
      Q (k + fuel * N) x.1
  | 0, _, _, _, _, _, _, _, h => by simp [jacobiLoop] at h
  | fuel + 1, k, t, prev, err, s, x, h0, h => by
    rw [jacobiLoop] at h
    split at h
    · have := jacobiLoop_count Q N hQ hm fuel (k + N) (t + 1) err (sweep t s).2 (sweep t s).1 x (hQ k t s h0) h
      rwa [show k + N + fuel * N = k + (fuel + 1) * N by ring] at this
    · cases h
      exact hm _ _ _ (Nat.le_add_right _ _) h0

theorem one_err (h : Rounding fl u) (h1 : fl 1 = 1) (hu1 : u < 1) (hη : unitErr u < 1) {ps pd : ℝ → ℝ → ℝ → ℝ → ℝ} (hps : IsProdSum fl ps)
    (hpd : IsProdDiff fl pd) (hyp : ℝ → ℝ → ℝ → ℝ) (dot : (Fin r → ℝ) → (Fin r → ℝ) → ℝ) (neg : ℕ → Fin (n + 1) → Fin (n + 1) → Bool)
    (A : Matrix (Fin r) (Fin (n + 1)) ℝ) (fuel : ℕ) (prev err : ℝ) (x : OneState ℝ r (n + 1) × ℝ)
    (hx : jacobiLoop (oneSweep fl ps pd hyp dot neg) fuel 0 prev err ⟨A, 1⟩ = some x) :
    ∃ P, OneErr (rotErr u (unitErr u)) A x.1 (fuel * ((n + 1) * n / 2)) P := by
  have hε := rotErr_nonneg h (unitErr_nonneg h hu1)
  have := jacobiLoop_count (fun k s => ∃ P, OneErr (rotErr u (unitErr u)) A s k P) ((n + 1) * n / 2)
    (fun k t s hs => oneSweep_err h h1 hu1 hη hps hpd hyp dot neg t hs) (fun k l s hkl hs => hs.imp fun P hP => hP.mono hε hkl) fuel 0 0 prev err _ x
    ⟨1, by simp, fun i => by simp [norm2_zero], fun j => by simp [norm2_zero]⟩ hx
  rwa [Nat.zero_add] at this

end Mathter.Fl
