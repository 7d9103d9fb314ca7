import Verif.Lemmas.RoundedSVD
import Verif.Props.RoundedReduce
import Verif.Props.RoundedQR

/-!
# C104: the one-sided singular value decomposition in floating point
-/

namespace Mathter.Props
open Mathter
variable {r n : ℕ} {fl : ℝ → ℝ} {u : ℝ}

/-- Relative error of one plane rotation, about `9 u`. -/
noncomputable def rotationErr (u : ℝ) : ℝ := 3 / 2 * ((1 + u) ^ 4 / (1 - u) ^ 2 - 1)

/-- Relative error of `k` rotations. -/
noncomputable def jacobiErr (u : ℝ) (k : ℕ) : ℝ := (1 + rotationErr u) ^ k - 1

private theorem rotErr_eq (u : ℝ) : Fl.rotErr u (Fl.unitErr u) = rotationErr u := by
  unfold Fl.rotErr Fl.unitErr rotationErr
  ring

/-- C104: the assertion of `DiagonalizeHermitian2x2` never fails, so it does not divide by zero, whatever the elements of the Gram matrix are. -/
theorem C104_assertion (h : Rounding fl u) {w : ℝ} {hyp : ℝ → ℝ → ℝ → ℝ} (hh : Fl.IsHypot w hyp) (hw : 1 < 2 * (1 - u) ^ 3 * (1 - w)) (hu1 : u < 1) (neg : Bool)
    (a11 a22 : ℝ) {aoff : ℝ} (ha : aoff ≠ 0) : |aoff| < 2 * |Fl.hermitianRoot fl hyp neg a11 aoff a22| := by
  unfold Fl.hermitianRoot
  simp only
  set z := fl (a22 - a11)
  clear_value z
  have hu := h.u_nonneg
  have h1 : 0 < 1 - u := by linarith
  have hw1 : 0 < 1 - w := by
    by_contra hn
    have : (1 - u) ^ 3 * (1 - w) ≤ 0 := mul_nonpos_of_nonneg_of_nonpos (by positivity) (not_lt.1 hn)
    linarith
  have e2 := (Fl.abs_fl_le h (2 * aoff)).1
  rw [abs_mul, abs_two] at e2
  set y := fl (2 * aoff)
  clear_value y
  have hy : |y| ≤ Real.sqrt (z ^ 2 + y ^ 2 + 0 ^ 2) := by
    apply Real.le_sqrt_of_sq_le
    rw [sq_abs]; nlinarith [sq_nonneg z]
  have hd := (abs_le.1 (hh z y 0)).1
  have hd2 : (1 - w) * |y| ≤ hyp z y 0 := by
    have := mul_le_mul_of_nonneg_left hy hw1.le
    linarith
  have hd0 : 0 ≤ hyp z y 0 := (mul_nonneg hw1.le (abs_nonneg y)).trans hd2
  have hsum : hyp z y 0 ≤ |z + copysignR neg (hyp z y 0) z| := by
    unfold copysignR
    rw [abs_of_nonneg hd0]
    split
    · rename_i hz
      have hz' : z ≤ 0 := by rcases hz with hz | hz; exacts [hz.le, hz.1.le]
      rw [abs_of_nonpos (by linarith)]; linarith
    · rename_i hz
      have hz' : 0 ≤ z := not_lt.1 fun hlt => hz (Or.inl hlt)
      rw [abs_of_nonneg (by linarith)]; linarith
  have f1 := (Fl.abs_fl_le h (z + copysignR neg (hyp z y 0) z)).1
  set v := fl (z + copysignR neg (hyp z y 0) z)
  clear_value v
  have f2 := (Fl.abs_fl_le h (1 / 2 * v)).1
  rw [abs_mul, abs_of_pos (by norm_num : (0 : ℝ) < 1 / 2)] at f2
  have hpos : 0 < |aoff| := abs_pos.2 ha
  have g1 := mul_le_mul_of_nonneg_left f1 h1.le
  have g2 := mul_le_mul_of_nonneg_left (mul_le_mul_of_nonneg_left hsum h1.le) h1.le
  have g3 := mul_le_mul_of_nonneg_left (mul_le_mul_of_nonneg_left hd2 h1.le) h1.le
  have g4 := mul_le_mul_of_nonneg_left (mul_le_mul_of_nonneg_left (mul_le_mul_of_nonneg_left e2 hw1.le) h1.le) h1.le
  have g5 : |aoff| < (2 * (1 - u) ^ 3 * (1 - w)) * |aoff| := by nlinarith
  calc |aoff| < (2 * (1 - u) ^ 3 * (1 - w)) * |aoff| := g5
    _ = (1 - u) * ((1 - u) * ((1 - w) * ((1 - u) * (2 * |aoff|)))) := by ring
    _ ≤ 2 * |fl (1 / 2 * v)| := by linarith

/-- C104: cosine and sine of every rotation have length one up to about three rounding errors, and the angle is at most 45 degrees. -/
theorem C104_rotation (h : Rounding fl u) (h1 : fl 1 = 1) (hu1 : u < 1) (hη : (1 + u) / (1 - u) ^ 2 < 2) {ps : ℝ → ℝ → ℝ → ℝ → ℝ} (hps : Fl.IsProdSum fl ps)
    (hyp : ℝ → ℝ → ℝ → ℝ) (neg : Bool) (a11 aoff a22 : ℝ) :
    let v0 := Fl.diagonalizeHermitian fl ps hyp neg a11 aoff a22
    let v := Fl.minimizeRotation fl v0.1 v0.2
    |Real.sqrt (v.1 ^ 2 + v.2 ^ 2) - 1| ≤ (1 + u) / (1 - u) ^ 2 - 1 ∧ |v.2| ≤ v.1 :=
  Fl.hermitian_unit h h1 (by unfold Fl.unitErr; linarith) hu1 hps hyp neg a11 aoff a22

/-- The columns of the working matrix divided by their lengths, and the products with the singular values. -/
private theorem scaled_row (h : Rounding fl u) {x S sc : ℝ} (hS : S ≠ 0) : |fl (x / S) * fl (S * sc) - sc * x| ≤ ((1 + u) ^ 2 - 1) * (|sc| * |x|) := by
  have := (((Near.exact (u := u) (x / S)).round h).prod h ((Near.exact (u := u) (S * sc)).round h)).err
  rw [← abs_mul, show x / S * (S * sc) = sc * x by field_simp, abs_mul] at this
  exact this

section
variable {ps pd : ℝ → ℝ → ℝ → ℝ → ℝ} {len : (Fin (r + 1) → ℝ) → ℝ}

private theorem all_over {qr : Matrix (Fin (r + 1)) (Fin (n + 1)) ℝ → QR ℝ (r + 1) (n + 1)} {sqrtEps : ℝ} {neg : Fin (n + 1) → Bool}
    {σ : Equiv.Perm (Fin (n + 1))} {sc : ℝ} {s : OneState ℝ (r + 1) (n + 1)} (hc : ∀ i, (len fun j => s.X j (σ i)) ≥ fl ((len fun j => s.X j (σ 0)) * sqrtEps))
    (i : Fin (n + 1)) : (Fl.oneFinish fl len qr sqrtEps neg σ sc s).S i = fl ((len fun j => s.X j (σ i)) * sc) := by
  unfold Fl.oneFinish
  simp only
  rw [if_neg (not_not.2 (by rw [Finset.filter_true_of_mem fun i _ => hc i, Finset.card_univ, Fintype.card_fin]))]

/-- If no singular value is small compared with the first, the columns of the working matrix are the left singular vectors. -/
private theorem branch (h : Rounding fl u) (hu1 : u < 1) (hlen0 : ∀ x, 0 ≤ len x) (qr : Matrix (Fin (r + 1)) (Fin (n + 1)) ℝ → QR ℝ (r + 1) (n + 1))
    {sqrtEps : ℝ} (he : 0 ≤ sqrtEps) (neg : Fin (n + 1) → Bool) (σ : Equiv.Perm (Fin (n + 1))) {sc : ℝ} (hsc0 : 0 < sc) (s : OneState ℝ (r + 1) (n + 1))
    (hS : ∀ i, (1 + u) ^ 2 * sqrtEps * |(Fl.oneFinish fl len qr sqrtEps neg σ sc s).S 0| ≤ (1 - u) * |(Fl.oneFinish fl len qr sqrtEps neg σ sc s).S i|) :
    (Finset.univ.filter fun i => (len fun j => s.X j (σ i)) ≥ fl ((len fun j => s.X j (σ 0)) * sqrtEps)).card = n + 1 := by
  have hu := h.u_nonneg
  have h1u : 0 < 1 - u := by linarith
  by_contra hne
  have hex : ∃ k, (len fun j => s.X j (σ k)) < fl ((len fun j => s.X j (σ 0)) * sqrtEps) := by
    by_contra hall
    push Not at hall
    apply hne
    rw [Finset.filter_true_of_mem fun k _ => hall k, Finset.card_univ, Fintype.card_fin]
  obtain ⟨k, hk⟩ := hex
  have hSk := hS k
  unfold Fl.oneFinish at hSk
  simp only at hSk
  rw [if_pos hne] at hSk
  simp only at hSk
  have q1 := (Fl.abs_fl_le h (copysignR (neg k) (len fun j => s.X j (σ k)) ((qr (Matrix.of fun j i =>
    if (len fun j => s.X j (σ i)) ≠ 0 then fl (s.X j (σ i) / len fun j => s.X j (σ i)) else s.X j (σ i))).R k k) * sc)).2
  have q2 := (Fl.abs_fl_le h (copysignR (neg 0) (len fun j => s.X j (σ 0)) ((qr (Matrix.of fun j i =>
    if (len fun j => s.X j (σ i)) ≠ 0 then fl (s.X j (σ i) / len fun j => s.X j (σ i)) else s.X j (σ i))).R 0 0) * sc)).1
  have cs : ∀ (b : Bool) (a y : ℝ), |copysignR b a y| = |a| := by intro b a y; unfold copysignR; split <;> simp
  rw [abs_mul, cs, abs_of_nonneg (hlen0 _), abs_of_pos hsc0] at q1 q2
  have q3 := (Fl.fl_le h (mul_nonneg (hlen0 fun j => s.X j (σ 0)) he)).2
  have q4 : (len fun j => s.X j (σ k)) * sc < (1 + u) * ((len fun j => s.X j (σ 0)) * sqrtEps) * sc := mul_lt_mul_of_pos_right (hk.trans_le q3) hsc0
  have q5 := mul_le_mul_of_nonneg_left q2 (by positivity : 0 ≤ (1 + u) ^ 2 * sqrtEps)
  have q6 := mul_le_mul_of_nonneg_left q1 h1u.le
  have q7 := mul_lt_mul_of_pos_left q4 (by positivity : 0 < (1 - u) * (1 + u))
  nlinarith [q5, q6, q7, hSk]

private theorem reconstruct (h : Rounding fl u) (h1 : fl 1 = 1) (hu1 : u < 1) (hη : (1 + u) / (1 - u) ^ 2 < 2) (hps : Fl.IsProdSum fl ps)
    (hpd : Fl.IsProdDiff fl pd) (hyp : ℝ → ℝ → ℝ → ℝ) (dot : (Fin (r + 1) → ℝ) → (Fin (r + 1) → ℝ) → ℝ) (hlen : ∀ x, len x = 0 → ∀ i, x i = 0)
    (hlen0 : ∀ x, 0 ≤ len x)
    (qr : Matrix (Fin (r + 1)) (Fin (n + 1)) ℝ → QR ℝ (r + 1) (n + 1)) (sqrtEps big big' : ℝ) (negS : ℕ → Fin (n + 1) → Fin (n + 1) → Bool)
    (neg : Fin (n + 1) → Bool) (σ : Equiv.Perm (Fin (n + 1))) (fuel : ℕ) (A : Matrix (Fin (r + 1)) (Fin (n + 1)) ℝ) (d : SVD ℝ (r + 1) (n + 1) (n + 1))
    (hd : Fl.svdOneSided fl ps pd hyp dot len qr sqrtEps big big' negS neg σ fuel A = some d) (he : 0 ≤ sqrtEps)
    (hS : ∀ i, (1 + u) ^ 2 * sqrtEps * |d.S 0| ≤ (1 - u) * |d.S i|) (i : Fin (r + 1)) :
    norm2 (fun j => (d.U * Matrix.diagonal d.S * d.V) i j - A i j) ≤
      ((1 + u) ^ 3 * (1 + jacobiErr u (fuel * ((n + 1) * n / 2))) * (1 + Real.sqrt ((n + 1 : ℕ) : ℝ) * jacobiErr u (fuel * ((n + 1) * n / 2))) - 1) * norm2 (A i) := by
  have hu := h.u_nonneg
  have h1u : 0 < 1 - u := by linarith
  unfold Fl.svdOneSided at hd
  simp only at hd
  split at hd
  · simp at hd
  rename_i hsc
  set sc := matScaleElements A
  have hsc0 : 0 < sc := lt_of_le_of_ne (le_matScaleElements A).1 (Ne.symm hsc)
  clear_value sc
  rw [Option.map_eq_some_iff] at hd
  obtain ⟨x, hx, rfl⟩ := hd
  obtain ⟨P, hP⟩ := Fl.one_err h h1 hu1 (by unfold Fl.unitErr; linarith) hps hpd hyp dot negS _ fuel big big' x hx
  rw [rotErr_eq] at hP
  have hX := hP.X i
  have hV := hP.V
  have hPP := hP.unit
  change _ ≤ jacobiErr u _ * _ at hX
  change ∀ j, _ ≤ jacobiErr u _ at hV
  have hκ : 0 ≤ jacobiErr u (fuel * ((n + 1) * n / 2)) := (norm2_nonneg _).trans (hV 0)
  generalize jacobiErr u (fuel * ((n + 1) * n / 2)) = κ at *
  clear hP hx
  generalize x.1 = s at *
  have hbr := branch h hu1 hlen0 qr he neg σ hsc0 s hS
  unfold Fl.oneFinish
  simp only
  rw [if_neg (not_not.2 hbr)]
  set b : Fin (n + 1) → ℝ := fun k => (if (len fun j => s.X j k) ≠ 0 then fl (s.X i k / len fun j => s.X j k) else s.X i k) * fl ((len fun j => s.X j k) * sc) with hb
  have e1 : ∀ j, ((Matrix.of fun j i => if (len fun j => s.X j (σ i)) ≠ 0 then fl (s.X j (σ i) / len fun j => s.X j (σ i)) else s.X j (σ i)) *
      Matrix.diagonal (fun i => fl ((len fun j => s.X j (σ i)) * sc)) * Matrix.of fun i j => s.V (σ i) j) i j = ∑ k, b k * s.V k j := by
    intro j
    rw [Matrix.mul_apply, ← Equiv.sum_comp σ fun k => b k * s.V k j]
    apply Finset.sum_congr rfl
    intro k _
    rw [Matrix.mul_diagonal]
    rfl
  simp only [e1]
  have hbx : ∀ k, |b k - sc * s.X i k| ≤ ((1 + u) ^ 2 - 1) * |sc * s.X i k| := by
    intro k
    rw [hb]
    simp only
    by_cases h0 : (len fun j => s.X j k) ≠ 0
    · rw [if_pos h0, abs_mul sc]; exact scaled_row h h0
    · have hz : s.X i k = 0 := hlen _ (not_not.1 h0) i
      rw [if_neg h0, hz]; simp
  clear_value b
  clear e1 hbr hS
  -- norms
  set a := norm2 (A i) with ha
  have ha0 : 0 ≤ a := norm2_nonneg _
  set as : Fin (n + 1) → ℝ := fun j => fl (A i j / sc) with has
  have g1 : norm2 (fun j => sc * as j - A i j) ≤ u * a := by
    apply norm2_le_mul hu
    intro j
    have t := mul_le_mul_of_nonneg_left (h.err (A i j / sc)) hsc0.le
    have e1 : sc * |fl (A i j / sc) - A i j / sc| = |sc * as j - A i j| := by
      have e : sc * as j - A i j = sc * (fl (A i j / sc) - A i j / sc) := by rw [has]; field_simp
      rw [e, abs_mul, abs_of_pos hsc0]
    have e2 : sc * (u * |A i j / sc|) = u * |A i j| := by rw [abs_div, abs_of_pos hsc0]; field_simp
    rwa [e1, e2] at t
  have g2 : sc * norm2 as ≤ (1 + u) * a := by
    have t := norm2_add_le (fun j => sc * as j - A i j) (A i)
    simp only [sub_add_cancel] at t
    rw [norm2_smul, abs_of_pos hsc0] at t
    linarith
  have hX' : norm2 (fun j => s.X i j - P.mulVec as j) ≤ κ * norm2 as := hX
  have hPT : P.transpose.transpose * P.transpose = 1 := by rw [Matrix.transpose_transpose]; exact mul_eq_one_comm.1 hPP
  clear_value as
  clear hX has
  have g3 : norm2 (s.X i) ≤ (1 + κ) * norm2 as := by
    have t := norm2_add_le (fun j => s.X i j - P.mulVec as j) (P.mulVec as)
    simp only [sub_add_cancel] at t
    rw [norm2_mulVec hPP] at t
    linarith
  have hg : 0 ≤ (1 + u) ^ 2 - 1 := by linarith [h.one_le 2]
  have g4 : norm2 (fun k => b k - sc * s.X i k) ≤ ((1 + u) ^ 2 - 1) * (sc * norm2 (s.X i)) := by
    rw [← abs_of_pos hsc0, ← norm2_smul, abs_of_pos hsc0]
    exact norm2_le_mul hg hbx
  have g5 : sc * norm2 (s.X i) ≤ (1 + κ) * ((1 + u) * a) := by
    have t1 := mul_le_mul_of_nonneg_left g3 hsc0.le
    have t2 := mul_le_mul_of_nonneg_left g2 (by linarith : 0 ≤ 1 + κ)
    linarith
  -- the part with the exact rotation
  have g6 : norm2 (fun k => b k - P.mulVec (A i) k) ≤ ((1 + u) ^ 3 * (1 + κ) - 1) * a := by
    have t1 := norm2_add_le (fun k => b k - sc * s.X i k) (fun k => sc * (s.X i k - P.mulVec as k) + P.mulVec (fun j => sc * as j - A i j) k)
    have t2 := norm2_add_le (fun k => sc * (s.X i k - P.mulVec as k)) (P.mulVec fun j => sc * as j - A i j)
    rw [norm2_smul, norm2_mulVec hPP, abs_of_pos hsc0] at t2
    have e : (fun k => b k - sc * s.X i k + (sc * (s.X i k - P.mulVec as k) + P.mulVec (fun j => sc * as j - A i j) k)) =
        fun k => b k - P.mulVec (A i) k := by
      funext k
      have : P.mulVec (fun j => sc * as j - A i j) k = sc * P.mulVec as k - P.mulVec (A i) k := by
        simp only [Matrix.mulVec, dotProduct, Finset.mul_sum, ← Finset.sum_sub_distrib]
        exact Finset.sum_congr rfl fun j _ => by ring
      rw [this]; ring
    rw [e] at t1
    have t3 := mul_le_mul_of_nonneg_left hX' hsc0.le
    have t4 := mul_le_mul_of_nonneg_left g2 hκ
    have t5 := mul_le_mul_of_nonneg_left g5 hg
    have e3 : ((1 + u) ^ 3 * (1 + κ) - 1) * a = ((1 + u) ^ 2 - 1) * ((1 + κ) * ((1 + u) * a)) + κ * ((1 + u) * a) + u * a := by ring
    rw [e3]
    linarith
  have g7 : norm2 b ≤ (1 + u) ^ 3 * (1 + κ) * a := by
    have t := norm2_add_le (fun k => b k - P.mulVec (A i) k) (P.mulVec (A i))
    simp only [sub_add_cancel] at t
    rw [norm2_mulVec hPP] at t
    linarith
  have g8 : norm2 (fun j => ∑ k, b k * (s.V k j - P k j)) ≤ Real.sqrt ((n + 1 : ℕ) : ℝ) * (κ * ((1 + u) ^ 3 * (1 + κ) * a)) := by
    refine norm2_le_sqrt (by positivity) fun j => (dot_abs_le _ _).trans ?_
    have := mul_le_mul g7 (hV j) (norm2_nonneg _) (by positivity)
    linarith
  have e4 : (fun j => ∑ k, b k * s.V k j - A i j) = fun j => P.transpose.mulVec (fun k => b k - P.mulVec (A i) k) j + ∑ k, b k * (s.V k j - P k j) := by
    funext j
    have e5 : P.transpose.mulVec (P.mulVec (A i)) j = A i j := by rw [Matrix.mulVec_mulVec, hPP, Matrix.one_mulVec]
    have e6 : P.transpose.mulVec (fun k => b k - P.mulVec (A i) k) j = ∑ k, b k * P k j - P.transpose.mulVec (P.mulVec (A i)) j := by
      simp only [Matrix.mulVec, dotProduct, Matrix.transpose_apply, ← Finset.sum_sub_distrib]
      exact Finset.sum_congr rfl fun k _ => by ring
    rw [e6, e5]
    simp only [mul_sub, Finset.sum_sub_distrib]
    ring
  rw [e4]
  refine (norm2_add_le _ _).trans ?_
  rw [norm2_mulVec hPT]
  calc _ ≤ ((1 + u) ^ 3 * (1 + κ) - 1) * a + Real.sqrt ((n + 1 : ℕ) : ℝ) * (κ * ((1 + u) ^ 3 * (1 + κ) * a)) := add_le_add g6 g8
    _ = _ := by ring

private theorem unit_column (h : Rounding fl u) (hu1 : u < 1) {g : ℝ} (hg : g < 1) (hlen : ∀ x, |len x - norm2 x| ≤ g * norm2 x)
    (x : Fin (r + 1) → ℝ) (hx : len x ≠ 0) : |(norm2 fun i => fl (x i / len x)) - 1| ≤ (1 + u) / (1 - g) - 1 := by
  have hu := h.u_nonneg
  have hN := norm2_nonneg x
  have hN0 : norm2 x ≠ 0 := fun h0 => by
    have := hlen x
    rw [h0, mul_zero, sub_zero] at this
    exact hx (abs_nonpos_iff.1 this)
  have hNp : 0 < norm2 x := lt_of_le_of_ne hN (Ne.symm hN0)
  have hl := abs_le.1 (hlen x)
  have hg0 : 0 ≤ g := by
    by_contra hn
    have := mul_neg_of_neg_of_pos (not_le.1 hn) hNp
    linarith [(abs_nonneg _).trans (hlen x)]
  have hL : 0 < len x := by nlinarith
  have e1 : norm2 (fun i => x i / len x) = norm2 x / len x := by
    have := norm2_smul (1 / len x) x
    rw [abs_of_pos (by positivity)] at this
    rw [show (fun i => x i / len x) = fun i => 1 / len x * x i from by funext i; ring, this]; ring
  have d1 : norm2 (fun i => fl (x i / len x) - x i / len x) ≤ u * (norm2 x / len x) := by
    rw [← e1]; exact norm2_le_mul hu fun i => h.err _
  have d2 := abs_le.1 (norm2_sub_le (fun i => fl (x i / len x)) (fun i => x i / len x))
  rw [e1] at d2
  have hp1 : 0 < 1 - g := by linarith
  have k1 : norm2 x / len x ≤ 1 / (1 - g) := by rw [div_le_div_iff₀ hL hp1]; linarith
  have k2 : 1 / (1 + g) ≤ norm2 x / len x := by rw [div_le_div_iff₀ (by linarith) hL]; linarith
  have k3 : (1 + u) * (norm2 x / len x) ≤ (1 + u) / (1 - g) := by
    have := mul_le_mul_of_nonneg_left k1 (by linarith : 0 ≤ 1 + u)
    rwa [mul_one_div] at this
  have k4 : (1 - u) / (1 + g) ≤ (1 - u) * (norm2 x / len x) := by
    have := mul_le_mul_of_nonneg_left k2 (by linarith : 0 ≤ 1 - u)
    rwa [mul_one_div] at this
  have k5 : 2 ≤ (1 - u) / (1 + g) + (1 + u) / (1 - g) := by
    rw [div_add_div _ _ (by linarith) (by linarith), le_div_iff₀ (by positivity)]
    nlinarith [mul_nonneg hu hg0, sq_nonneg g]
  rw [abs_le]
  constructor <;> linarith

end

/-! ## The theorems -/

/-- C104: if no singular value is smaller than the first one times (about) the square root of the machine epsilon, the product of the factors reproduces
every row of the matrix up to rounding errors that grow with the number of sweeps, whether or not the sweeps have converged. -/
theorem C104_reconstruct (h : Rounding fl u) (h1 : fl 1 = 1) (hu1 : u < 1) (hη : (1 + u) / (1 - u) ^ 2 < 2) {ps pd : ℝ → ℝ → ℝ → ℝ → ℝ}
    (hps : Fl.IsProdSum fl ps) (hpd : Fl.IsProdDiff fl pd) (hyp : ℝ → ℝ → ℝ → ℝ) (dot : (Fin (r + 1) → ℝ) → (Fin (r + 1) → ℝ) → ℝ)
    (c : Cfg) (p conv : Bool) (tb : RTree (batchSize (r + 1) false)) (ts : RTree (r + 1 + 1)) (htb : tb.Valid) (hts : ts.Valid) (hr : (1 + u) ^ (r + 2) < 2)
    (qr : Matrix (Fin (r + 1)) (Fin (n + 1)) ℝ → QR ℝ (r + 1) (n + 1)) (sqrtEps big big' : ℝ) (he : 0 ≤ sqrtEps)
    (negS : ℕ → Fin (n + 1) → Fin (n + 1) → Bool) (neg : Fin (n + 1) → Bool) (σ : Equiv.Perm (Fin (n + 1))) (sweeps : ℕ)
    (A : Matrix (Fin (r + 1)) (Fin (n + 1)) ℝ) (d : SVD ℝ (r + 1) (n + 1) (n + 1))
    (hd : Fl.svdOneSided fl ps pd hyp dot (fun x => Fl.length fl conv tb ts (Vec.ofFn x : Vec c ℝ (r + 1) p)) qr sqrtEps big big' negS neg σ sweeps A = some d)
    (hS : ∀ i, (1 + u) ^ 2 * sqrtEps * |d.S 0| ≤ (1 - u) * |d.S i|) :
    (∀ i, norm2 (fun j => (d.U * Matrix.diagonal d.S * d.V) i j - A i j) ≤
      ((1 + u) ^ 3 * (1 + jacobiErr u (sweeps * ((n + 1) * n / 2))) * (1 + Real.sqrt ((n + 1 : ℕ) : ℝ) * jacobiErr u (sweeps * ((n + 1) * n / 2))) - 1) *
        norm2 (A i)) ∧
    (∀ j, 0 ≤ d.S j) ∧ ∀ j, d.S j ≠ 0 → |(norm2 fun i => d.U i j) - 1| ≤ (1 + u) / (2 - (1 + u) ^ (r + 2)) - 1 := by
  obtain ⟨len, hdef⟩ : ∃ len : (Fin (r + 1) → ℝ) → ℝ, len = fun x => Fl.length fl conv tb ts (Vec.ofFn x : Vec c ℝ (r + 1) p) := ⟨_, rfl⟩
  rw [← hdef] at hd
  have hlen : ∀ x, |len x - norm2 x| ≤ ((1 + u) ^ (r + 2) - 1) * norm2 x := by
    intro x
    have := C76_length h conv tb ts htb hts (Vec.ofFn x : Vec c ℝ (r + 1) p)
    simp only [Vec.get_ofFn] at this
    rw [hdef]
    exact this
  have hlen0 : ∀ x, 0 ≤ len x := by
    intro x
    have h0 := (abs_le.1 (hlen x)).1
    have := norm2_nonneg x
    nlinarith
  have hlenz : ∀ x, len x = 0 → ∀ i, x i = 0 := by
    intro x hx
    have h0 := hlen x
    rw [hx, zero_sub, abs_neg, abs_of_nonneg (norm2_nonneg x)] at h0
    have := norm2_nonneg x
    exact norm2_eq_zero (by nlinarith)
  clear hdef
  refine ⟨reconstruct h h1 hu1 hη hps hpd hyp dot hlenz hlen0 qr sqrtEps big big' negS neg σ sweeps A d hd he hS, ?_⟩
  have hu := h.u_nonneg
  unfold Fl.svdOneSided at hd
  simp only at hd
  split at hd
  · simp at hd
  rename_i hsc
  have hsc0 : 0 < matScaleElements A := lt_of_le_of_ne (le_matScaleElements A).1 (Ne.symm hsc)
  rw [Option.map_eq_some_iff] at hd
  obtain ⟨x, -, rfl⟩ := hd
  have hbr := branch h hu1 hlen0 qr he neg σ hsc0 x.1 hS
  clear hS
  unfold Fl.oneFinish
  simp only
  rw [if_neg (not_not.2 hbr)]
  refine ⟨fun j => (mul_nonneg (by linarith : 0 ≤ 1 - u) (mul_nonneg (hlen0 _) hsc0.le)).trans (Fl.fl_le h (mul_nonneg (hlen0 _) hsc0.le)).1, fun j hj => ?_⟩
  have hl0 : (len fun i => x.1.X i (σ j)) ≠ 0 := fun h0 => hj (by
    simp only
    rw [h0, zero_mul, Fl.fl_zero h])
  simp only [Matrix.of_apply, if_pos hl0]
  have := unit_column h hu1 (by linarith) hlen (fun i => x.1.X i (σ j)) hl0
  rwa [show 1 - ((1 + u) ^ (r + 2) - 1) = 2 - (1 + u) ^ (r + 2) by ring] at this

/-- C104: in any case `V` is within rounding errors of an orthogonal matrix. -/
theorem C104_orthogonal (h : Rounding fl u) (h1 : fl 1 = 1) (hu1 : u < 1) (hη : (1 + u) / (1 - u) ^ 2 < 2) {ps pd : ℝ → ℝ → ℝ → ℝ → ℝ}
    (hps : Fl.IsProdSum fl ps) (hpd : Fl.IsProdDiff fl pd) (hyp : ℝ → ℝ → ℝ → ℝ) (dot : (Fin (r + 1) → ℝ) → (Fin (r + 1) → ℝ) → ℝ)
    (len : (Fin (r + 1) → ℝ) → ℝ) (qr : Matrix (Fin (r + 1)) (Fin (n + 1)) ℝ → QR ℝ (r + 1) (n + 1)) (sqrtEps big big' : ℝ)
    (negS : ℕ → Fin (n + 1) → Fin (n + 1) → Bool) (neg : Fin (n + 1) → Bool) (σ : Equiv.Perm (Fin (n + 1))) (sweeps : ℕ)
    (A : Matrix (Fin (r + 1)) (Fin (n + 1)) ℝ) (d : SVD ℝ (r + 1) (n + 1) (n + 1))
    (hd : Fl.svdOneSided fl ps pd hyp dot len qr sqrtEps big big' negS neg σ sweeps A = some d) :
    ∃ W : Matrix (Fin (n + 1)) (Fin (n + 1)) ℝ, W.transpose * W = 1 ∧
      ∀ j, norm2 (fun i => d.V i j - W i j) ≤ jacobiErr u (sweeps * ((n + 1) * n / 2)) := by
  unfold Fl.svdOneSided at hd
  simp only at hd
  split at hd
  · simp at hd
  rw [Option.map_eq_some_iff] at hd
  obtain ⟨x, hx, rfl⟩ := hd
  obtain ⟨P, hP⟩ := Fl.one_err h h1 hu1 (by unfold Fl.unitErr; linarith) hps hpd hyp dot negS _ sweeps big big' x hx
  rw [rotErr_eq] at hP
  have hV : ∀ i j, (Fl.oneFinish fl len qr sqrtEps neg σ (matScaleElements A) x.1).V i j = x.1.V (σ i) j := by
    intro i j
    unfold Fl.oneFinish
    simp only
    split <;> rfl
  refine ⟨Matrix.of fun i j => P (σ i) j, ?_, fun j => ?_⟩
  · ext i j
    rw [← hP.unit, Matrix.mul_apply, Matrix.mul_apply, ← Equiv.sum_comp σ fun k => P.transpose i k * P k j]
    rfl
  · simp only [hV, Matrix.of_apply]
    have := hP.V j
    unfold norm2 at this ⊢
    rwa [Equiv.sum_comp σ fun i => (x.1.V i j - P i j) ^ 2]

/-- C104: the error of `k` rotations is a small multiple of `k` times the unit roundoff. -/
theorem C104_size {k : ℕ} (hu : 0 ≤ u) (hu1 : 100 * u ≤ 1) (hk : 24 * k * u ≤ 1) : 0 ≤ jacobiErr u k ∧ jacobiErr u k ≤ 24 * k * u := by
  have e1 : rotationErr u ≤ 12 * u := by
    unfold rotationErr
    have : (1 + u) ^ 4 / (1 - u) ^ 2 ≤ 1 + 8 * u := by
      rw [div_le_iff₀ (by nlinarith)]
      nlinarith [mul_nonneg hu hu, mul_nonneg (mul_nonneg hu hu) hu, mul_nonneg (mul_nonneg hu hu) (mul_nonneg hu hu),
        mul_nonneg (mul_nonneg hu hu) (by linarith : 0 ≤ 1 - 100 * u), mul_nonneg hu (by linarith : 0 ≤ 1 - 100 * u),
        mul_nonneg (mul_nonneg (mul_nonneg hu hu) hu) (by linarith : 0 ≤ 1 - 100 * u)]
    linarith
  have e0 : 0 ≤ rotationErr u := by
    unfold rotationErr
    have : 1 ≤ (1 + u) ^ 4 / (1 - u) ^ 2 := by
      rw [le_div_iff₀ (by nlinarith)]
      nlinarith [mul_nonneg hu hu, mul_nonneg (mul_nonneg hu hu) hu, mul_nonneg (mul_nonneg hu hu) (mul_nonneg hu hu)]
    linarith
  unfold jacobiErr
  have hkn : (0 : ℝ) ≤ k := Nat.cast_nonneg k
  refine ⟨by linarith [one_le_pow₀ (by linarith : 1 ≤ 1 + rotationErr u) (n := k)], ?_⟩
  have b : (1 + rotationErr u) ^ k ≤ (1 + 12 * u) ^ k := pow_le_pow_left₀ (by linarith) (by linarith) k
  have b1 := one_add_mul_le_pow (a := -(12 * u) / (1 + 12 * u)) (by rw [le_div_iff₀ (by linarith)]; linarith) k
  have e : 1 + -(12 * u) / (1 + 12 * u) = 1 / (1 + 12 * u) := by field_simp; ring
  rw [e, div_pow, one_pow] at b1
  have hp : 0 < (1 + 12 * u) ^ k := by positivity
  have b2 : 1 - k * (12 * u) ≤ 1 / (1 + 12 * u) ^ k := by
    refine le_trans ?_ b1
    have : 12 * u / (1 + 12 * u) ≤ 12 * u := div_le_self (by linarith) (by linarith)
    have := mul_le_mul_of_nonneg_left this hkn
    have e2 : (k : ℝ) * (-(12 * u) / (1 + 12 * u)) = -(k * (12 * u / (1 + 12 * u))) := by ring
    linarith
  rw [le_div_iff₀ hp] at b2
  have hx : 0 ≤ k * (12 * u) := by positivity
  nlinarith

/-! ## Examples -/

/-- The smallness conditions hold for single precision, and a hundred thousand rotations change the result by less than a fifth. -/
example : Rounding (flAway 24) ((2 : ℝ) ^ (-((24 : ℕ) : ℤ))) ∧ flAway 24 1 = 1 ∧ (1 + (2 : ℝ) ^ (-((24 : ℕ) : ℤ))) / (1 - (2 : ℝ) ^ (-((24 : ℕ) : ℤ))) ^ 2 < 2 ∧
    (1 + (2 : ℝ) ^ (-((24 : ℕ) : ℤ))) ^ (100 + 2) < 2 ∧ jacobiErr ((2 : ℝ) ^ (-((24 : ℕ) : ℤ))) 100000 ≤ 1 / 5 := by
  have hn := flAway_roundsToNearest (p := 24) (by norm_num)
  refine ⟨hn.rounding (by norm_num), ?_, by norm_num, by norm_num, ?_⟩
  · have := hn.nearest 1 1 ⟨1, 0, by norm_num, by norm_num⟩
    rw [sub_self, abs_zero] at this
    exact sub_eq_zero.1 (abs_nonpos_iff.1 this)
  · have := (C104_size (u := (2 : ℝ) ^ (-((24 : ℕ) : ℤ))) (k := 100000) (by positivity) (by norm_num) (by norm_num)).2
    exact this.trans (by norm_num)

/-- Separate and fused operations are both covered, and the exact square root rounded is a `hypot`. -/
example (h : Rounding fl u) : Fl.IsProdSum fl (fun a b c d => fl (fl (a * b) + fl (c * d))) ∧ Fl.IsProdSum fl (fun a b c d => fl (a * b + fl (c * d))) ∧
    Fl.IsHypot u (fun x y z => fl (Real.sqrt (x ^ 2 + y ^ 2 + z ^ 2))) :=
  ⟨fun _ _ _ _ => Or.inl rfl, fun _ _ _ _ => Or.inr (Or.inl rfl), fun x y z => by
    have := h.err (Real.sqrt (x ^ 2 + y ^ 2 + z ^ 2))
    rwa [abs_of_nonneg (Real.sqrt_nonneg _)] at this⟩

/-- A decomposition with a result that meets the condition on the singular values. -/
example (h : Rounding fl u) (h1 : fl 1 = 1) (hu : u ≤ 1 / 100) {ps pd : ℝ → ℝ → ℝ → ℝ → ℝ} (hyp : ℝ → ℝ → ℝ → ℝ) {dot : (Fin (1 + 1) → ℝ) → (Fin (1 + 1) → ℝ) → ℝ}
    (hdot : ∀ x y, (∀ i, x i * y i = 0) → dot x y = 0) {len : (Fin (1 + 1) → ℝ) → ℝ} (hlen : ∀ x, |len x - norm2 x| ≤ 1 / 10 * norm2 x)
    (qr : Matrix (Fin (1 + 1)) (Fin (1 + 1)) ℝ → QR ℝ (1 + 1) (1 + 1)) {sqrtEps big big' : ℝ} (he : 0 ≤ sqrtEps) (he1 : sqrtEps ≤ 1 / 100) (hb : 0 < big')
    (hbb : big' < big) (negS : ℕ → Fin (1 + 1) → Fin (1 + 1) → Bool) (neg : Fin (1 + 1) → Bool) (sweeps : ℕ) :
    ∃ d, Fl.svdOneSided fl ps pd hyp dot len qr sqrtEps big big' negS neg (Equiv.refl _) (sweeps + 3) !![4, 0; 0, 3] = some d ∧
      ∀ i, (1 + u) ^ 2 * sqrtEps * |d.S 0| ≤ (1 - u) * |d.S i| := by
  have hu0 := h.u_nonneg
  have hsc : matScaleElements (!![4, 0; 0, 3] : Matrix (Fin (1 + 1)) (Fin (1 + 1)) ℝ) = 4 := by
    have g := le_matScaleElements (!![4, 0; 0, 3] : Matrix (Fin (1 + 1)) (Fin (1 + 1)) ℝ)
    refine le_antisymm ?_ ((le_trans (by norm_num) (Finset.le_sup' (fun i => max |RCLike.re ((![4, 0] : Fin (1 + 1) → ℝ) i)| |RCLike.im ((![4, 0] : Fin (1 + 1) → ℝ) i)|) (Finset.mem_univ 0))).trans (g.2 0))
    have b0 : scaleElements (![4, 0] : Fin (1 + 1) → ℝ) ≤ 4 := Finset.sup'_le _ _ fun i _ => by fin_cases i <;> norm_num
    have b1 : scaleElements (![0, 3] : Fin (1 + 1) → ℝ) ≤ 4 := Finset.sup'_le _ _ fun i _ => by fin_cases i <;> norm_num
    simpa [matScaleElements, forUp, forUpAux] using ⟨b0, b1⟩
  have hx : |fl (3 / 4) - 3 / 4| ≤ 1 / 100 := (h.err _).trans (by rw [abs_of_pos (by norm_num)]; linarith)
  set y := fl (3 / 4) with hy
  clear_value y
  obtain ⟨X, hXd⟩ : ∃ X : Matrix (Fin (1 + 1)) (Fin (1 + 1)) ℝ, X = !![1, 0; 0, y] := ⟨_, rfl⟩
  have hX : Fl.oneInit fl !![4, 0; 0, 3] 4 = ⟨X, 1⟩ := by
    unfold Fl.oneInit
    congr 1
    ext i j
    fin_cases i <;> fin_cases j <;> simp [h1, Fl.fl_zero h, hy, hXd]
  have hd0 : (dot (fun i => X i 0) fun i => X i 1) = 0 := hdot _ _ fun i => by rw [hXd]; fin_cases i <;> simp
  have hsw : ∀ t, Fl.oneSweep fl ps pd hyp dot negS t ⟨X, 1⟩ = (⟨X, 1⟩, 0) := by
    intro t
    unfold Fl.oneSweep
    have i1 : ∀ p s, forUp (1 + 1) ((1 : Fin (1 + 1)).val + 1) (fun q s => Fl.oneStep fl ps pd hyp dot (negS t p q) p q s) s = s := fun p s => forUp_ge (by simp)
    have i0 : forUp (1 + 1) ((0 : Fin (1 + 1)).val + 1) (fun q s => Fl.oneStep fl ps pd hyp dot (negS t 0 q) 0 q s) (⟨X, 1⟩, 0) = (⟨X, 1⟩, 0) := by
      rw [forUp_step (by simp), forUp_ge (by simp)]
      show Fl.oneStep fl ps pd hyp dot _ 0 1 _ = _
      unfold Fl.oneStep
      simp only [hd0, abs_zero, ne_eq, not_true_eq_false, if_false]
    rw [forUp_step (by simp), forUp_step (by simp), forUp_ge (by simp)]
    exact (congrArg _ i0).trans (i1 1 _)
  unfold Fl.svdOneSided
  simp only [hsc, hX]
  rw [if_neg (by norm_num), jacobiLoop, if_pos hbb]
  simp only [hsw]
  rw [jacobiLoop, if_pos hb]
  simp only [hsw]
  rw [jacobiLoop, if_neg (lt_irrefl _), Option.map_some]
  refine ⟨_, rfl, ?_⟩
  have hy0 := abs_le.1 hx
  have n0 : norm2 (fun j => X j 0) = 1 := by
    rw [hXd]; simp [norm2, Fin.sum_univ_succ]
  have n1 : norm2 (fun j => X j 1) = y := by
    rw [hXd]; simp [norm2, Fin.sum_univ_succ]
    exact Real.sqrt_sq (by linarith)
  have l0 := abs_le.1 (hlen fun j => X j 0)
  have l1 := abs_le.1 (hlen fun j => X j 1)
  rw [n0] at l0
  rw [n1] at l1
  have t0 := Fl.fl_le h (x := (len fun j => X j 0) * sqrtEps) (mul_nonneg (by linarith) he)
  have s0 := Fl.fl_le h (x := (len fun j => X j 0) * 4) (by linarith)
  have s1 := Fl.fl_le h (x := (len fun j => X j 1) * 4) (by linarith)
  have t1 : fl ((len fun j => X j 0) * sqrtEps) ≤ 2 / 100 := t0.2.trans (by nlinarith)
  have hc : ∀ i, (len fun j => X j i) ≥ fl ((len fun j => X j 0) * sqrtEps) := by
    intro i
    fin_cases i
    · show (len fun j => X j 0) ≥ _
      linarith
    · show (len fun j => X j 1) ≥ _
      linarith
  have hS := all_over (qr := qr) (neg := neg) (σ := Equiv.refl _) (sc := 4) (s := ⟨X, 1⟩) hc
  have p0 : (1 + u) ^ 2 * sqrtEps ≤ 2 / 100 := by
    have : (1 + u) ^ 2 ≤ 2 := by nlinarith
    nlinarith
  have a0 : 0 ≤ fl ((len fun j => X j 0) * 4) := by nlinarith
  have a1 : 2 ≤ fl ((len fun j => X j 1) * 4) := by nlinarith
  have a2 : fl ((len fun j => X j 0) * 4) ≤ 5 := by nlinarith
  have a3 : 2 ≤ fl ((len fun j => X j 0) * 4) := by nlinarith
  have a4 := mul_le_mul p0 a2 a0 (by norm_num)
  intro i
  fin_cases i
  · rw [hS, hS]; show (1 + u) ^ 2 * sqrtEps * |fl ((len fun j => X j 0) * 4)| ≤ (1 - u) * |fl ((len fun j => X j 0) * 4)|
    rw [abs_of_nonneg a0]; nlinarith
  · rw [hS, hS]; show (1 + u) ^ 2 * sqrtEps * |fl ((len fun j => X j 0) * 4)| ≤ (1 - u) * |fl ((len fun j => X j 1) * 4)|
    rw [abs_of_nonneg a0, abs_of_nonneg (by linarith)]; nlinarith

end Mathter.Props
