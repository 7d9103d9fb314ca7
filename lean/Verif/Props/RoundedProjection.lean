import Verif.Lemmas.RoundedTransforms
import Verif.Lemmas.RoundedOne
import Verif.Props.Projection

/-!
# C120: projections in floating point

The matrix that is built is applied exactly (`applyT`) and the image is compared with the exact projection. `u` is the unit roundoff of the arithmetic,
`uc` that of the element type of the matrix, to which the elements are converted.
-/

namespace Mathter.Props
open Mathter Fl
variable {fl cast tanF : ℝ → ℝ} {u uc : ℝ}

private theorem fl_zero_iff (h : Rounding fl u) (hu2 : u ≤ 1 / 1000) (x : ℝ) : fl x = 0 ↔ x = 0 := by
  have e := h.err x
  constructor
  · intro h0
    rw [h0, zero_sub, abs_neg] at e
    by_contra hx
    have := abs_pos.2 hx
    nlinarith
  · rintro rfl
    rw [abs_zero, mul_zero, sub_zero] at e
    exact abs_eq_zero.1 (le_antisymm e (abs_nonneg _))

private theorem ortho_apply {n : ℕ} (o : Order) (k : TKind) (hk : k ≠ .linear) (scale offset : Fin (n + 1) → ℝ) (v : Fin (n + 1) → ℝ) :
    applyT o k (forUp (n + 1) 0 (fun i m => elemF o (n + 1) i.val (offset i) (setAt i.val i.val (scale i) m))
      (identityMat (K := ℝ) (tRows o (n + 1) k) (tCols o (n + 1) k))) v = some fun i => scale i * v i + offset i := by
  have hin : ∀ a b, a < k.outs (n + 1) → b < k.ins (n + 1) → inR o (tRows o (n + 1) k) (tCols o (n + 1) k) a b :=
    fun a b h1 h2 => (inR_t ..).2 ⟨h1, h2⟩
  have he := forUp_inv (n := n + 1) (lo := 0) (body := fun i m =>
      elemF o (n + 1) i.val (offset i) (setAt (K := ℝ) (r := tRows o (n + 1) k) (c := tCols o (n + 1) k) i.val i.val (scale i) m))
    (s := identityMat _ _)
    (fun q m => ∀ a b, inR o (tRows o (n + 1) k) (tCols o (n + 1) k) a b → ent o m a b =
      if h : a < n + 1 then
        (if a < q then (if b = n + 1 then offset ⟨a, h⟩ else if b = a then scale ⟨a, h⟩ else 0) else if a = b then 1 else 0)
      else if a = b then 1 else 0) (Nat.zero_le _)
    (by
      intro a b hR
      rw [ent_identityMat]
      simp only [hR, and_true, Nat.not_lt_zero, if_false]
      split_ifs <;> rfl)
    (by
      intro i m _ ih a b hR
      rw [ent_elemF, ent_setAt_diag]
      simp only [hR, and_true]
      rw [ih a b hR]
      by_cases ha : a = i.val
      · subst ha
        simp only [true_and, i.isLt, dite_true, Nat.lt_succ_self, if_true, lt_irrefl, if_false]
        split_ifs <;> first | rfl | (exfalso; omega)
      · simp only [ha, false_and, if_false]
        have : a < i.val + 1 ↔ a < i.val := by omega
        simp only [this])
  refine (applyT_eq (Matrix.diagonal scale) offset ?_ ?_ ?_ ?_ v).trans ?_
  · intro i j
    rw [he _ _ (inR_lin i j), dif_pos i.isLt, if_pos i.isLt, if_neg (by omega), Matrix.diagonal_apply]
    simp only [Fin.ext_iff, eq_comm]
  · intro _ i
    rw [he _ _ (hin _ _ (by cases k <;> first | exact i.isLt | exact i.isLt.trans (Nat.lt_succ_self _)) (by cases k <;> simp_all)),
      dif_pos i.isLt, if_pos i.isLt, if_pos rfl]
  · intro e; exact absurd e hk
  · rintro rfl
    constructor
    · intro j
      rw [he _ _ (hin _ _ (by simp) (by simp)), dif_neg (by omega), if_neg (by omega)]
    · rw [he _ _ (hin _ _ (by simp) (by simp)), dif_neg (by omega), if_pos rfl]
  · congr 1
    funext i
    rw [Pi.add_apply, Matrix.mulVec_diagonal]

/-- C120: a volume without extent is rejected, and only that. -/
theorem C120_orthographic_rejects (h : Rounding fl u) (hu2 : u ≤ 1 / 1000) {madd : ℝ → ℝ → ℝ → ℝ} {n : ℕ} (o : Order) (r c : ℕ)
    (minB maxB : Fin (n + 1) → ℝ) (near far : ℝ) : Fl.orthographic fl cast madd o r c minB maxB near far = none ↔ ∃ i, minB i = maxB i := by
  have e : (∃ i, fl (maxB i - minB i) = 0) ↔ ∃ i, minB i = maxB i := by
    simp only [fl_zero_iff h hu2, sub_eq_zero, eq_comm]
  rw [Fl.orthographic]
  by_cases h1 : ∃ i, fl (maxB i - minB i) = 0
  · exact iff_of_true (if_pos h1) (e.1 h1)
  · refine iff_of_false ?_ (fun h2 => h1 (e.2 h2))
    simp only [h1, if_false, reduceCtorEq, not_false_iff]

private theorem cast_err (huc : 0 ≤ uc) (hcast : ∀ x, |cast x - x| ≤ uc * |x|) {x x0 M g : ℝ} (hx : |x - x0| ≤ g * M) (h0 : |x0| ≤ M) :
    |cast x - x0| ≤ (g + uc * (1 + g)) * M := by
  have h1 := hcast x
  have h2 : |x| ≤ (1 + g) * M := by have := abs_sub_abs_le_abs_sub x x0; linarith
  have h3 := mul_le_mul_of_nonneg_left h2 huc
  exact (abs_sub_le _ x _).trans (by linarith)

private theorem scale_rel (h : Rounding fl u) (hu2 : u ≤ 1 / 1000) (a b : ℝ) : Rel u (201 / 100) (fl (2 / fl (a - b))) (2 / (a - b)) :=
  (Rel.div h.u_nonneg hu2 le_rfl zero_le_one (by norm_num) (Rel.refl h.u_nonneg le_rfl 2) (rel_fl h (a - b)) (m := 1002 / 1000) (by norm_num)).round h hu2
    (by norm_num) (by norm_num)

private theorem half_rel (h : Rounding fl u) (hu2 : u ≤ 1 / 1000) (a b : ℝ) : Rel u (201 / 100) (fl (-fl (a + b) / 2)) (-(a + b) / 2) :=
  (Rel.div h.u_nonneg hu2 zero_le_one le_rfl (by norm_num) (rel_fl h (a + b)).neg (Rel.refl h.u_nonneg le_rfl 2) (m := 1) (by norm_num)).round h hu2
    (by norm_num) (by norm_num)

private theorem madd_err (h : Rounding fl u) (hu2 : u ≤ 1 / 1000) {madd : ℝ → ℝ → ℝ → ℝ} (hma : IsMulAdd fl madd) {a b c p0 c0 k : ℝ} (hk : 0 ≤ k)
    (h1 : Rel u k (fl (a * b)) p0) (h2 : Rel u k (a * b) p0) (h3 : Rel u k c c0) :
    |madd a b c - (p0 + c0)| ≤ (k + 1 + k / 1000) * u * (|p0| + |c0|) := by
  have hu := h.u_nonneg
  have key : ∀ p, Rel u k p p0 → |fl (p + c) - (p0 + c0)| ≤ (k + 1 + k / 1000) * u * (|p0| + |c0|) := by
    intro p hp
    have hM : 0 ≤ |p0| + |c0| := by positivity
    have hs : |p + c - (p0 + c0)| ≤ k * u * (|p0| + |c0|) := by
      rw [show p + c - (p0 + c0) = (p - p0) + (c - c0) by ring]
      refine (abs_add_le _ _).trans ?_
      unfold Fl.Rel at hp h3
      linarith
    have ha : |p + c| ≤ (1 + k * u) * (|p0| + |c0|) := by
      have := abs_sub_abs_le_abs_sub (p + c) (p0 + c0)
      linarith [abs_add_le p0 c0]
    have hr := h.err (p + c)
    have hr2 := mul_le_mul_of_nonneg_left ha hu
    have hku : k * u * u ≤ k / 1000 * u := mul_le_mul_of_nonneg_right (by nlinarith) hu
    have hku2 := mul_le_mul_of_nonneg_right hku hM
    exact (abs_sub_le _ (p + c) _).trans (by linarith)
  rcases hma a b c with e | e
  · rw [e]; exact key _ h1
  · rw [e]; exact key _ h2

/-- C120: `Orthographic` in floating point, in any dimension, order and shape: the first coordinates. -/
theorem C120_orthographic (h : Rounding fl u) (hu2 : u ≤ 1 / 1000) (huc : 0 ≤ uc) (hcast : ∀ x, |cast x - x| ≤ uc * |x|) {madd : ℝ → ℝ → ℝ → ℝ}
    (hma : IsMulAdd fl madd) {n : ℕ} (o : Order) (k : TKind) (hk : k ≠ .linear) (minB maxB : Fin (n + 1) → ℝ) (near far : ℝ)
    (hne : ∀ i, minB i ≠ maxB i) :
    ∃ m, Fl.orthographic fl cast madd o (tRows o (n + 1) k) (tCols o (n + 1) k) minB maxB near far = some m ∧
      ∀ v, ∃ w, applyT o k m v = some w ∧
        (∀ i, i ≠ Fin.last n → |w i - (-1 + 2 * ((v i - minB i) / (maxB i - minB i)))| ≤
          (6 * u + 1.1 * uc) * ((2 * |v i| + |maxB i + minB i|) / |maxB i - minB i|)) ∧
        ∀ i, i = Fin.last n → |w i - (near + (far - near) * ((v i - minB i) / (maxB i - minB i)))| ≤
          (10 * u + 1.1 * uc) * (|far - near| / 2 * ((2 * |v i| + |maxB i + minB i|) / |maxB i - minB i|) + |far + near| / 2) := by
  have hu := h.u_nonneg
  have hno : ¬∃ i, fl (maxB i - minB i) = 0 := by
    rintro ⟨i, hi⟩
    rw [fl_zero_iff h hu2, sub_eq_zero] at hi
    exact hne i hi.symm
  have hD : ∀ i, maxB i - minB i ≠ 0 := fun i => sub_ne_zero.2 (hne i).symm
  refine ⟨_, by rw [Fl.orthographic, if_neg hno], fun v => ⟨_, ortho_apply o k hk _ _ v, ?_, ?_⟩⟩
  · intro i hi
    simp only [Function.update_of_ne hi]
    have hP : Rel u (504 / 100) (fl (fl (-fl (maxB i + minB i) / 2) * fl (2 / fl (maxB i - minB i)))) (-(maxB i + minB i) / 2 * (2 / (maxB i - minB i))) :=
      (Rel.mul hu hu2 (by norm_num) (by norm_num) (half_rel h hu2 (maxB i) (minB i)) (scale_rel h hu2 (maxB i) (minB i)) (m := 403 / 100)
        (by norm_num)).round h hu2 (by norm_num) (by norm_num)
    have hc1 := cast_err huc hcast (scale_rel h hu2 (maxB i) (minB i)) le_rfl
    have hc2 := cast_err huc hcast hP le_rfl
    have e1 : -1 + 2 * ((v i - minB i) / (maxB i - minB i)) = 2 / (maxB i - minB i) * v i + -(maxB i + minB i) / 2 * (2 / (maxB i - minB i)) := by
      have := hD i
      field_simp
      ring
    have e2 : (2 * |v i| + |maxB i + minB i|) / |maxB i - minB i| =
        |2 / (maxB i - minB i)| * |v i| + |-(maxB i + minB i) / 2 * (2 / (maxB i - minB i))| := by
      rw [abs_mul (-(maxB i + minB i) / 2), abs_div, abs_div, abs_neg, abs_two]
      have := abs_ne_zero.2 (hD i)
      field_simp
    rw [e1, e2]
    generalize cast (fl (2 / fl (maxB i - minB i))) = s at *
    generalize cast (fl (fl (-fl (maxB i + minB i) / 2) * fl (2 / fl (maxB i - minB i)))) = t at *
    generalize 2 / (maxB i - minB i) = s0 at *
    generalize -(maxB i + minB i) / 2 * s0 = t0 at *
    have g1 : 201 / 100 * u + uc * (1 + 201 / 100 * u) ≤ 6 * u + 1.1 * uc := by nlinarith
    have g2 : 504 / 100 * u + uc * (1 + 504 / 100 * u) ≤ 6 * u + 1.1 * uc := by nlinarith
    have c1 := hc1.trans (mul_le_mul_of_nonneg_right g1 (abs_nonneg _))
    have c2 := hc2.trans (mul_le_mul_of_nonneg_right g2 (abs_nonneg _))
    rw [show s * v i + t - (s0 * v i + t0) = (s - s0) * v i + (t - t0) by ring]
    refine (abs_add_le _ _).trans ?_
    rw [abs_mul]
    have c3 := mul_le_mul_of_nonneg_right c1 (abs_nonneg (v i))
    linarith
  · rintro i rfl
    simp only [Function.update_self]
    set L := Fin.last n
    have hF : Rel u (201 / 100) (fl (1 / 2 * fl (far - near))) (1 / 2 * (far - near)) :=
      (Rel.mul hu hu2 le_rfl zero_le_one (Rel.refl hu le_rfl (1 / 2)) (rel_fl h (far - near)) (m := 1) (by norm_num)).round h hu2 (by norm_num) (by norm_num)
    have hC : Rel u (201 / 100) (fl (fl (far + near) / 2)) ((far + near) / 2) :=
      (Rel.div hu hu2 zero_le_one le_rfl (by norm_num) (rel_fl h (far + near)) (Rel.refl hu le_rfl 2) (m := 1) (by norm_num)).round h hu2 (by norm_num) (by norm_num)
    have hS : Rel u (504 / 100) (fl (fl (2 / fl (maxB L - minB L)) * fl (1 / 2 * fl (far - near)))) (2 / (maxB L - minB L) * (1 / 2 * (far - near))) :=
      (Rel.mul hu hu2 (by norm_num) (by norm_num) (scale_rel h hu2 (maxB L) (minB L)) hF (m := 403 / 100) (by norm_num)).round h hu2 (by norm_num) (by norm_num)
    have hP := Rel.mul hu hu2 (by norm_num) (by norm_num) (half_rel h hu2 (maxB L) (minB L)) hS (m := 707 / 100) (by norm_num)
    have hM := madd_err h hu2 hma (by norm_num) (hP.round h hu2 (by norm_num) (m := 809 / 100) (by norm_num)) (hP.mono hu (l := 809 / 100) (by norm_num))
      (hC.mono hu (l := 809 / 100) (by norm_num))
    have hc1 := cast_err huc hcast hS le_rfl
    have hc2 := cast_err huc hcast hM (abs_add_le _ _)
    have e1 : near + (far - near) * ((v L - minB L) / (maxB L - minB L)) = 2 / (maxB L - minB L) * (1 / 2 * (far - near)) * v L +
        (-(maxB L + minB L) / 2 * (2 / (maxB L - minB L) * (1 / 2 * (far - near))) + (far + near) / 2) := by
      have := hD L
      field_simp
      ring
    have e2 : |far - near| / 2 * ((2 * |v L| + |maxB L + minB L|) / |maxB L - minB L|) + |far + near| / 2 =
        |2 / (maxB L - minB L) * (1 / 2 * (far - near))| * |v L| +
          (|-(maxB L + minB L) / 2 * (2 / (maxB L - minB L) * (1 / 2 * (far - near)))| + |(far + near) / 2|) := by
      rw [abs_mul (-(maxB L + minB L) / 2), abs_mul (2 / (maxB L - minB L)), abs_mul (1 / 2), abs_div, abs_div, abs_div, abs_div, abs_neg, abs_two, abs_one]
      have := abs_ne_zero.2 (hD L)
      field_simp
      ring
    rw [e1, e2]
    generalize cast (fl (fl (2 / fl (maxB L - minB L)) * fl (1 / 2 * fl (far - near)))) = s at *
    generalize cast (madd _ _ _) = t at *
    generalize 2 / (maxB L - minB L) * (1 / 2 * (far - near)) = s0 at *
    generalize -(maxB L + minB L) / 2 * s0 = t0 at *
    generalize (far + near) / 2 = c0 at *
    have g1 : 504 / 100 * u + uc * (1 + 504 / 100 * u) ≤ 10 * u + 1.1 * uc := by nlinarith
    have g2 : (809 / 100 + 1 + 809 / 100 / 1000) * u + uc * (1 + (809 / 100 + 1 + 809 / 100 / 1000) * u) ≤ 10 * u + 1.1 * uc := by nlinarith
    have c1 := hc1.trans (mul_le_mul_of_nonneg_right g1 (abs_nonneg _))
    have c2 := hc2.trans (mul_le_mul_of_nonneg_right g2 (by positivity))
    rw [show s * v L + t - (s0 * v L + (t0 + c0)) = (s - s0) * v L + (t - (t0 + c0)) by ring]
    refine (abs_add_le _ _).trans ?_
    rw [abs_mul]
    have c3 := mul_le_mul_of_nonneg_right c1 (abs_nonneg (v L))
    linarith

/-- What a matrix with these elements does. -/
private theorem persp_apply {n : ℕ} (o : Order) (adj : Fin (n + 1) → ℝ) (A B C : ℝ) (hC : C ≠ 0) (v : Fin (n + 2) → ℝ) (hz : v (Fin.last (n + 1)) ≠ 0)
    (m : Matrix (Fin (tRows o (n + 2) .homogeneous)) (Fin (tCols o (n + 2) .homogeneous)) ℝ)
    (he : ∀ a b, a < n + 3 → b < n + 3 → ent o m a b = if a = n + 2 ∧ b = n + 1 then C else if a = n + 1 ∧ b = n + 2 then B
      else if a = n + 1 ∧ b = n + 1 then A else if h : a < n + 1 then (if a = b then adj ⟨a, h⟩ else 0) else 0) :
    ∃ w, applyT o .homogeneous m v = some w ∧ (∀ i : Fin (n + 1), w i.castSucc = adj i * v i.castSucc / (C * v (Fin.last (n + 1)))) ∧
      w (Fin.last (n + 1)) = (A * v (Fin.last (n + 1)) + B) / (C * v (Fin.last (n + 1))) := by
  have hlast : ∑ j : Fin (n + 2), ent o m (n + 2) j * v j + ent o m (n + 2) (n + 2) = C * v (Fin.last (n + 1)) := by
    rw [Fin.sum_univ_castSucc, he _ _ (by omega) (by omega), Finset.sum_eq_zero, he _ _ (by simp) (by simp)]
    · simp
    · intro j _
      rw [he _ _ (by simp) (by simp; omega)]
      simp; omega
  have hlat : ∀ i : Fin (n + 1), ∑ j : Fin (n + 2), ent o m i j * v j + ent o m i (n + 2) = adj i * v i.castSucc := by
    intro i
    have h1 : i.val ≠ n + 1 := by omega
    have h2 : i.val ≠ n + 2 := by omega
    rw [Finset.sum_eq_single i.castSucc]
    · rw [he _ _ (by omega) (by simp; omega), he _ _ (by omega) (by omega)]
      simp [h1, h2, i.isLt]
    · intro j _ hj
      rw [he _ _ (by omega) (by omega)]
      have h3 : i.val ≠ j.val := fun e => hj (Fin.ext e.symm)
      simp [h1, h2, h3]
    · simp
  have hdep : ∑ j : Fin (n + 2), ent o m (n + 1) j * v j + ent o m (n + 1) (n + 2) = A * v (Fin.last (n + 1)) + B := by
    rw [Finset.sum_eq_single (Fin.last (n + 1))]
    · rw [he _ _ (by omega) (by simp), he _ _ (by omega) (by omega)]
      simp
    · intro j _ hj
      rw [he _ _ (by omega) (by omega)]
      have h1 : j.val ≠ n + 1 := fun e => hj (Fin.ext e)
      have h2 : j.val ≠ n + 2 := by omega
      simp [h1, h2]
    · simp
  rw [applyT_hom, hlast, if_neg (mul_ne_zero hC hz)]
  refine ⟨_, rfl, fun i => ?_, ?_⟩
  · simp only [Fin.val_castSucc]
    rw [hlat i]
  · simp only [Fin.val_last]
    rw [hdep]

private theorem persp_form {n : ℕ} (o : Order) (adj : Fin (n + 1) → ℝ) (A B C : ℝ) (a b : ℕ) (ha : a < n + 3) (hb : b < n + 3) :
    ent o (setAt (n + 3 - 1) (n + 3 - 2) (match o with | .follow => ((C, B) : ℝ × ℝ) | .precede => (B, C)).2
      (setAt (n + 3 - 2) (n + 3 - 1) (match o with | .follow => ((C, B) : ℝ × ℝ) | .precede => (B, C)).1
        (setAt (n + 3 - 2) (n + 3 - 2) A (forUp (n + 1) 0 (fun i m => setAt i.val i.val (adj i) m) (zeroMat (n + 3) (n + 3)))))) a b =
      if a = n + 2 ∧ b = n + 1 then C else if a = n + 1 ∧ b = n + 2 then B
      else if a = n + 1 ∧ b = n + 1 then A else if h : a < n + 1 then (if a = b then adj ⟨a, h⟩ else 0) else 0 := by
  have hR : inR o (n + 3) (n + 3) a b := by cases o <;> simp only [inR] <;> omega
  have hdiag : ent o (forUp (n + 1) 0 (fun i m => setAt i.val i.val (adj i) m) (zeroMat (n + 3) (n + 3))) a b =
      if h : a < n + 1 then (if a = b then adj ⟨a, h⟩ else 0) else 0 := by
    have := forUp_inv (n := n + 1) (lo := 0) (body := fun i m => setAt i.val i.val (adj i) m) (s := zeroMat (n + 3) (n + 3))
      (fun q m => ent o m a b = if h : a < n + 1 then (if a = b ∧ a < q then adj ⟨a, h⟩ else 0) else 0)
      (Nat.zero_le _) (by rw [ent_zeroMat]; simp)
      (by
        intro i m _ ih
        rw [ent_setAt_diag, ih]
        by_cases ha : a = i.val
        · subst ha
          simp only [true_and, hR, and_true, i.isLt, dite_true, Nat.lt_succ_self, lt_irrefl, and_false, if_false, eq_comm]
        · have : a < i.val + 1 ↔ a < i.val := by omega
          simp only [ha, false_and, if_false, this])
    rw [this]
    by_cases h : a < n + 1
    · simp only [h, dite_true, and_true]
    · simp only [h, dite_false]
  cases o
  · rw [ent_setAt_f, ent_setAt_f, ent_setAt_f, hdiag]
    simp only [hR, and_true, show n + 3 - 2 = n + 1 by omega, show n + 3 - 1 = n + 2 by omega]
    split_ifs <;> first | rfl | (exfalso; omega)
  · rw [ent_setAt_p, ent_setAt_p, ent_setAt_p, hdiag]
    simp only [hR, and_true, show n + 3 - 2 = n + 1 by omega, show n + 3 - 1 = n + 2 by omega]

/-- C120: what the builder rejects, if half the field of view is a float. -/
theorem C120_perspective_rejects (htan : IsTan u tanF) (hu2 : u ≤ 1 / 1000) {pd : ℝ → ℝ → ℝ → ℝ → ℝ} {n : ℕ} (o : Order) (r c : ℕ) (fov : ℝ)
    (hfov : fl (1 / 2 * |fov|) = |fov| / 2) (ratios : Fin (n + 1) → ℝ) (near far pn pf : ℝ) :
    Fl.perspective fl tanF pd o r c fov ratios near far pn pf = none ↔ ¬ValidPlanes near far ∨ Real.tan (|fov| / 2) = 0 ∨ ∃ i, ratios i = 0 := by
  have e : tanF (|fov| / 2) = 0 ↔ Real.tan (|fov| / 2) = 0 := by
    have h1 := htan (|fov| / 2)
    constructor
    · intro h0
      rw [h0, zero_sub, abs_neg] at h1
      by_contra hx
      have := abs_pos.2 hx
      nlinarith
    · intro h0
      rw [h0, abs_zero, mul_zero, sub_zero] at h1
      exact abs_eq_zero.1 (le_antisymm h1 (abs_nonneg _))
  rw [Fl.perspective]
  by_cases h1 : ValidPlanes near far
  · have h1' : (near < 0 ∧ far < near) ∨ (0 < near ∧ near < far) := h1
    by_cases h2 : Real.tan (|fov| / 2) = 0 ∨ ∃ i, ratios i = 0
    · simp only [h1', hfov, e, h2, if_true, true_iff, or_true]
    · simp only [h1', hfov, e, h2, h1, if_false, if_true, not_true, reduceCtorEq, or_false]
  · have h1' : ¬((near < 0 ∧ far < near) ∨ (0 < near ∧ near < far)) := h1
    simp only [h1', if_false, h1, not_false_iff, true_or]

/-- C120: `Perspective` in floating point, in any dimension and order, for positions in front of the eye: the lateral coordinates have a small relative
error. The depth has a small error relative to the two terms that it is the difference of, which are large compared to the depth if the near plane is
much closer than the far plane. -/
theorem C120_perspective (h : Rounding fl u) (hu2 : u ≤ 1 / 1000) (htan : IsTan u tanF) {pd : ℝ → ℝ → ℝ → ℝ → ℝ} (hpd : IsProdDiff fl pd) {n : ℕ} (o : Order)
    (fov : ℝ) (hfov : fl (1 / 2 * |fov|) = |fov| / 2) (ratios : Fin (n + 1) → ℝ) (near far pn pf : ℝ) (hp : ValidPlanes near far)
    (hw : Real.tan (|fov| / 2) ≠ 0) (hr : ∀ i, ratios i ≠ 0) :
    ∃ m, Fl.perspective fl tanF pd o (tRows o (n + 2) .homogeneous) (tCols o (n + 2) .homogeneous) fov ratios near far pn pf = some m ∧
      ∀ v : Fin (n + 2) → ℝ, 0 < v (Fin.last (n + 1)) * near → ∃ w, applyT o .homogeneous m v = some w ∧
        (∀ i : Fin (n + 1), |w i.castSucc - ratios 0 / ratios i * (v i.castSucc / |v (Fin.last (n + 1))|) / Real.tan (|fov| / 2)| ≤
          5 * u * |ratios 0 / ratios i * (v i.castSucc / |v (Fin.last (n + 1))|) / Real.tan (|fov| / 2)|) ∧
        |w (Fin.last (n + 1)) -
            ((pf * far - pn * near) * v (Fin.last (n + 1)) + far * near * (pn - pf)) / ((far - near) * v (Fin.last (n + 1)))| ≤
          7 * u * ((|pf * far| + |pn * near|) / |far - near| + |far * near * (pn - pf)| / (|far - near| * |v (Fin.last (n + 1))|)) := by
  have hu := h.u_nonneg
  have hnone : Fl.perspective fl tanF pd o (tRows o (n + 2) .homogeneous) (tCols o (n + 2) .homogeneous) fov ratios near far pn pf ≠ none := by
    rw [Ne, C120_perspective_rejects htan hu2 o _ _ fov hfov]
    rintro (h' | h' | ⟨i, hi⟩)
    · exact h' hp
    · exact hw h'
    · exact hr i hi
  obtain ⟨m, hm⟩ := Option.ne_none_iff_exists'.1 hnone
  refine ⟨m, hm, fun v hv => ?_⟩
  have hp' : (near < 0 ∧ far < near) ∨ (0 < near ∧ near < far) := hp
  have hw' : tanF (|fov| / 2) ≠ 0 := by
    intro h0
    have h1 := htan (|fov| / 2)
    rw [h0, zero_sub, abs_neg] at h1
    have := abs_pos.2 hw
    nlinarith
  have hnot : ¬(tanF (|fov| / 2) = 0 ∨ ∃ i, ratios i = 0) := by
    rintro (h' | ⟨i, h'⟩)
    · exact hw' h'
    · exact hr i h'
  set C : ℝ := if near < 0 then -1 else 1 with hCd
  set A := fl (fl (C * pd pf far pn near) / fl (far - near)) with hA
  set B := fl (fl (fl (fl (C * far) * near) * fl (pn - pf)) / fl (far - near)) with hB
  have he : ∀ a b, a < n + 3 → b < n + 3 → ent o m a b = if a = n + 2 ∧ b = n + 1 then C else if a = n + 1 ∧ b = n + 2 then B
      else if a = n + 1 ∧ b = n + 1 then A else if h : a < n + 1 then (if a = b then fl (fl (ratios 0 / ratios ⟨a, h⟩) / tanF (|fov| / 2)) else 0) else 0 := by
    intro a b ha hb
    rw [Fl.perspective] at hm
    simp only [hp', if_true, hfov, hnot, if_false, Option.some.injEq] at hm
    rw [← hm]
    have := persp_form o (fun i => fl (fl (ratios 0 / ratios i) / tanF (|fov| / 2))) A B C a b ha hb
    cases o <;> exact this
  have hz : v (Fin.last (n + 1)) ≠ 0 := fun e => by rw [e, zero_mul] at hv; exact lt_irrefl _ hv
  have hC1 : |C| = 1 := by rw [hCd]; split_ifs <;> simp
  have hC0 : C ≠ 0 := fun e => by rw [e, abs_zero] at hC1; exact zero_ne_one hC1
  have habs : C * v (Fin.last (n + 1)) = |v (Fin.last (n + 1))| := by
    rw [hCd]
    split_ifs with hn
    · have : v (Fin.last (n + 1)) < 0 := by nlinarith
      rw [abs_of_neg this]; ring
    · have hn' : 0 < near := lt_of_le_of_ne (not_lt.1 hn) (fun e => by rw [← e, mul_zero] at hv; exact lt_irrefl _ hv)
      have : 0 < v (Fin.last (n + 1)) := by nlinarith
      rw [abs_of_pos this]; ring
  have hd : far - near ≠ 0 := by
    rcases hp with ⟨_, h⟩ | ⟨_, h⟩
    · exact (sub_neg.2 h).ne
    · exact (sub_pos.2 h).ne'
  obtain ⟨w, hwv, hlat, hdep⟩ := persp_apply o (fun i => fl (fl (ratios 0 / ratios i) / tanF (|fov| / 2))) A B C hC0 v hz m he
  refine ⟨w, hwv, fun i => ?_, ?_⟩
  · rw [hlat, habs]
    have hadj : Rel u (402 / 100) (fl (fl (ratios 0 / ratios i) / tanF (|fov| / 2))) (ratios 0 / ratios i / Real.tan (|fov| / 2)) :=
      (Rel.div hu hu2 zero_le_one (by norm_num : (0 : ℝ) ≤ 2) (by norm_num) (rel_fl h (ratios 0 / ratios i)) (htan (|fov| / 2)) (m := 3007 / 1000)
        (by norm_num)).round h hu2 (by norm_num) (by norm_num)
    have hz' := abs_pos.2 hz
    unfold Fl.Rel at hadj
    generalize fl (fl (ratios 0 / ratios i) / tanF (|fov| / 2)) = x at *
    rw [show ratios 0 / ratios i * (v i.castSucc / |v (Fin.last (n + 1))|) / Real.tan (|fov| / 2) =
      ratios 0 / ratios i / Real.tan (|fov| / 2) * (v i.castSucc / |v (Fin.last (n + 1))|) by ring]
    generalize ratios 0 / ratios i / Real.tan (|fov| / 2) = x0 at *
    rw [show x * v i.castSucc / |v (Fin.last (n + 1))| - x0 * (v i.castSucc / |v (Fin.last (n + 1))|) = (x - x0) * (v i.castSucc / |v (Fin.last (n + 1))|) by ring,
      abs_mul, abs_mul, ← mul_assoc]
    refine mul_le_mul_of_nonneg_right (hadj.trans ?_) (abs_nonneg _)
    exact mul_le_mul_of_nonneg_right (by linarith) (abs_nonneg _)
  · rw [hdep, habs]
    -- the two elements
    have hBr : Rel u (604 / 100) B (C * far * near * (pn - pf) / (far - near)) := by
      have r1 := (rel_fl h (C * far)).mul hu hu2 zero_le_one le_rfl (Rel.refl hu le_rfl near) (m := 1) (by norm_num)
      have r2 := r1.round h hu2 (by norm_num) (m := 2001 / 1000) (by norm_num)
      have r3 := r2.mul hu hu2 (by norm_num) zero_le_one (rel_fl h (pn - pf)) (m := 3004 / 1000) (by norm_num)
      have r4 := r3.round h hu2 (by norm_num) (m := 4008 / 1000) (by norm_num)
      have r5 := Rel.div hu hu2 (by norm_num) zero_le_one (by norm_num) r4 (rel_fl h (far - near)) (m := 5014 / 1000) (by norm_num)
      exact r5.round h hu2 (by norm_num) (by norm_num)
    have hAr : |A - C * (pf * far - pn * near) / (far - near)| ≤ 6 * u * ((|pf * far| + |pn * near|) / |far - near|) := by
      have n1 := Near.pd h hpd (Near.exact (u := u) pf) (Near.exact far) (Near.exact pn) (Near.exact near)
      have n2 := (Near.exact (u := u) C).mul h n1
      rw [← abs_mul, ← abs_mul, hC1, one_mul] at n2
      have n3 := n2.err
      have n4 := n2.bound
      have hg := pow3_le hu hu2
      have hM : 0 ≤ |pf * far| + |pn * near| := by positivity
      have n5 := n3.trans (mul_le_mul_of_nonneg_right hg hM)
      have hinv := Rel.inv hu hu2 zero_le_one (by norm_num) (rel_fl h (far - near)) (m := 1002 / 1000) (by norm_num)
      have hia := hinv.abs_le
      unfold Fl.Rel at hinv
      rw [hA, div_eq_mul_inv (fl (C * pd pf far pn near)), div_eq_mul_inv (C * (pf * far - pn * near)), div_eq_mul_inv (|pf * far| + |pn * near|)]
      rw [abs_inv (far - near)] at hinv hia
      have hI : |(far - near)⁻¹| = |far - near|⁻¹ := abs_inv _
      have hI0 : 0 ≤ |far - near|⁻¹ := by positivity
      generalize fl (C * pd pf far pn near) = X at *
      generalize C * (pf * far - pn * near) = X0 at *
      generalize |pf * far| + |pn * near| = M at *
      generalize (fl (far - near))⁻¹ = I at *
      generalize |far - near|⁻¹ = D at *
      generalize (far - near)⁻¹ = I0 at *
      have hMD : 0 ≤ M * D := mul_nonneg hM hI0
      have e1 : |X * I - X0 * I0| ≤ 402 / 100 * u * (M * D) := by
        rw [show X * I - X0 * I0 = (X - X0) * I + X0 * (I - I0) by ring]
        refine (abs_add_le _ _).trans ?_
        rw [abs_mul, abs_mul]
        have q1 := mul_le_mul n5 hia (abs_nonneg _) (by positivity)
        have q2 := mul_le_mul n4 hinv (abs_nonneg _) hM
        have q3 : 301 / 100 * u * M * ((1 + 1002 / 1000 * u) * D) ≤ 3014 / 1000 * u * (M * D) := by
          have : 301 / 100 * u * (1 + 1002 / 1000 * u) ≤ 3014 / 1000 * u := by nlinarith
          have := mul_le_mul_of_nonneg_right this hMD
          linarith
        have q4 : 0 ≤ u * (M * D) := mul_nonneg hu hMD
        linarith
      have e2 : |X * I| ≤ 1005 / 1000 * (M * D) := by
        have := abs_sub_abs_le_abs_sub (X * I) (X0 * I0)
        have h0 : |X0 * I0| ≤ M * D := by rw [abs_mul, hI]; exact mul_le_mul_of_nonneg_right n4 hI0
        have h1 := mul_le_mul_of_nonneg_right hu2 hMD
        linarith
      have e3 := h.err (X * I)
      have e4 := mul_le_mul_of_nonneg_left e2 hu
      have e5 : 0 ≤ u * (M * D) := mul_nonneg hu hMD
      exact (abs_sub_le _ (X * I) _).trans (by linarith)
    unfold Fl.Rel at hBr
    have hz' := abs_pos.2 hz
    have hd' := abs_pos.2 hd
    have e0 : ((pf * far - pn * near) * v (Fin.last (n + 1)) + far * near * (pn - pf)) / ((far - near) * v (Fin.last (n + 1))) =
        (C * (pf * far - pn * near) / (far - near) * v (Fin.last (n + 1)) + C * far * near * (pn - pf) / (far - near)) / |v (Fin.last (n + 1))| := by
      rw [← habs]
      field_simp
    have e1 : |C * far * near * (pn - pf) / (far - near)| = |far * near * (pn - pf)| / |far - near| := by
      rw [show C * far * near * (pn - pf) = C * (far * near * (pn - pf)) by ring, abs_div, abs_mul C, hC1, one_mul]
    rw [e1] at hBr
    rw [e0]
    generalize v (Fin.last (n + 1)) = z at *
    generalize C * (pf * far - pn * near) / (far - near) = A0 at *
    generalize C * far * near * (pn - pf) / (far - near) = B0 at *
    rw [show (A * z + B) / |z| - (A0 * z + B0) / |z| = ((A - A0) * z + (B - B0)) / |z| by ring, abs_div, abs_abs, div_le_iff₀ hz']
    refine (abs_add_le _ _).trans ?_
    rw [abs_mul]
    have q1 := mul_le_mul_of_nonneg_right hAr hz'.le
    have e2 : |far * near * (pn - pf)| / (|far - near| * |z|) * |z| = |far * near * (pn - pf)| / |far - near| := by
      field_simp
    rw [mul_assoc, add_mul, e2]
    have p1 : 0 ≤ (|pf * far| + |pn * near|) / |far - near| * |z| := by positivity
    have p2 : 0 ≤ |far * near * (pn - pf)| / |far - near| := by positivity
    generalize |far * near * (pn - pf)| / |far - near| = b at *
    generalize (|pf * far| + |pn * near|) / |far - near| = a at *
    have r1 := mul_nonneg hu p1
    have r2 := mul_nonneg hu p2
    linarith

/-! ## The hypotheses can be met -/

private theorem p_away24 : Rounding (flAway 24) ((2 : ℝ) ^ (-((24 : ℕ) : ℤ))) := (flAway_roundsToNearest (by norm_num)).rounding (by norm_num)

/-- A box off the origin, with doubles converted to floats or with floats. -/
example : Rounding (flAway 53) ((2 : ℝ) ^ (-((53 : ℕ) : ℤ))) ∧ (∀ x, |flAway 24 x - x| ≤ (2 : ℝ) ^ (-((24 : ℕ) : ℤ)) * |x|) ∧
    IsMulAdd (flAway 53) (fun a b c => flAway 53 (flAway 53 (a * b) + c)) ∧ ∀ i, (![2, -1, 5] : Fin 3 → ℝ) i ≠ ![3, 4, 50] i :=
  ⟨(flAway_roundsToNearest (by norm_num)).rounding (by norm_num), p_away24.err, fun _ _ _ => Or.inl rfl, by intro i; fin_cases i <;> norm_num⟩

/-- A field of view of 1, and the tangent rounded to nearest. -/
example : IsTan ((2 : ℝ) ^ (-((24 : ℕ) : ℤ))) (fun x => flAway 24 (Real.tan x)) ∧ flAway 24 (1 / 2 * |(1 : ℝ)|) = |1| / 2 ∧
    ValidPlanes (-1) (-10) ∧ Real.tan (|(1 : ℝ)| / 2) ≠ 0 ∧ (∀ i, (![1, 9 / 16] : Fin 2 → ℝ) i ≠ 0) ∧
    IsProdDiff (flAway 24) (fun a b c d => flAway 24 (flAway 24 (a * b) - flAway 24 (c * d))) ∧
    0 < (![3, 4, -5] : Fin 3 → ℝ) (Fin.last 2) * -1 := by
  refine ⟨fun x => ?_, ?_, Or.inl (by norm_num), ?_, ?_, fun _ _ _ _ => Or.inl rfl, ?_⟩
  · refine (p_away24.err _).trans (mul_le_mul_of_nonneg_right ?_ (abs_nonneg _))
    linarith [p_away24.u_nonneg]
  · rw [abs_one]
    exact ((flAway_roundsToNearest (p := 24) (by norm_num)).fixed ⟨1, -1, by norm_num, by norm_num⟩).trans (by norm_num)
  · rw [abs_one]
    exact (Real.tan_pos_of_pos_of_lt_pi_div_two (by norm_num) (by linarith [Real.two_le_pi])).ne'
  · intro i; fin_cases i <;> norm_num
  · norm_num [Fin.last]

end Mathter.Props
