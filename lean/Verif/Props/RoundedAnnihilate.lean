import Verif.Lemmas.RoundedAnnihilateTwo
import Verif.Props.RoundedSVD
import Verif.Props.RoundedSVDTwo

/-!
# C104, C106: what the rotations of the rounded singular value decompositions remove
-/

namespace Mathter.Props
open Mathter
variable {r n : ℕ} {fl : ℝ → ℝ} {u w : ℝ}

/-- C104: the rotation that is found for a symmetric 2x2 matrix makes it diagonal, up to rounding errors relative to the element beside the diagonal. -/
theorem C104_annihilate (h : Rounding fl u) (h1 : fl 1 = 1) (hu : 1000 * u ≤ 1) {ps : ℝ → ℝ → ℝ → ℝ → ℝ} (hps : Fl.IsProdSum fl ps)
    {hyp : ℝ → ℝ → ℝ → ℝ} (hh : Fl.IsHypot w hyp) (hw : w ≤ 2 * u) (neg : Bool) (a11 aoff a22 : ℝ) :
    let v0 := Fl.diagonalizeHermitian fl ps hyp neg a11 aoff a22
    let v := Fl.minimizeRotation fl v0.1 v0.2
    let V := !![v.1, -v.2; v.2, v.1]
    |(V.transpose * !![a11, aoff; aoff, a22] * V) 0 1| ≤ 30 * u * |aoff| := by
  intro v0 v V
  convert Fl.hermitian_off h h1 (by linarith) hps hh hw neg a11 aoff a22 using 2
  show (!![v.1, -v.2; v.2, v.1].transpose * !![a11, aoff; aoff, a22] * !![v.1, -v.2; v.2, v.1]) 0 1 = Fl.offDiag aoff (a22 - a11) v.1 v.2
  unfold Fl.offDiag
  simp [Matrix.mul_apply, Fin.sum_univ_two]
  ring

/-- C104: the two columns of the working matrix that were rotated are orthogonal afterwards, up to the rounding errors of the rotation and the relative
error `g` of the sums of products that make up the Gram matrix. -/
theorem C104_columns (h : Rounding fl u) (h1 : fl 1 = 1) (hu : 1000 * u ≤ 1) {ps pd : ℝ → ℝ → ℝ → ℝ → ℝ} (hps : Fl.IsProdSum fl ps)
    (hpd : Fl.IsProdDiff fl pd) {hyp : ℝ → ℝ → ℝ → ℝ} (hh : Fl.IsHypot w hyp) (hw : w ≤ 2 * u) {dot : (Fin r → ℝ) → (Fin r → ℝ) → ℝ} {g : ℝ} (hg : 0 ≤ g)
    (hdot : ∀ x y, |dot x y - ∑ i, x i * y i| ≤ g * ∑ i, |x i| * |y i|) (neg : Bool) (p q : Fin n) (hpq : p ≠ q) (s : OneState ℝ r n) :
    let X := (Fl.oneRotate fl ps pd hyp dot neg p q s).X
    |∑ i, X i p * X i q| ≤ (20 * u + 11 / 10 * g) * (∑ i, s.X i p ^ 2 + ∑ i, s.X i q ^ 2) := by
  have hu0 := h.u_nonneg
  have hu2 : u ≤ 1 / 1000 := by linarith
  intro X
  have hoff := Fl.hermitian_off h h1 hu2 hps hh hw neg (dot (fun i => s.X i p) fun i => s.X i p) (dot (fun i => s.X i p) fun i => s.X i q)
    (dot (fun i => s.X i q) fun i => s.X i q)
  have hun := (Fl.hermitian_unit h h1 (by linarith [Fl.unitErr_small hu0 hu2]) (by linarith) hps hyp neg (dot (fun i => s.X i p) fun i => s.X i p)
    (dot (fun i => s.X i p) fun i => s.X i q) (dot (fun i => s.X i q) fun i => s.X i q)).1
  have hX : X = (Fl.oneRotate fl ps pd hyp dot neg p q s).X := rfl
  clear_value X
  unfold Fl.oneRotate at hX
  simp only at hX hoff
  set v0 := Fl.diagonalizeHermitian fl ps hyp neg (dot (fun i => s.X i p) fun i => s.X i p) (dot (fun i => s.X i p) fun i => s.X i q)
    (dot (fun i => s.X i q) fun i => s.X i q)
  set v := Fl.minimizeRotation fl v0.1 v0.2
  clear_value v0 v
  have hcs : v.1 ^ 2 + v.2 ^ 2 ≤ 102 / 100 := (Fl.sq_le_of_nearUnit hun).trans ((pow_le_pow_left₀ (by linarith [Fl.unitErr_nonneg h (by linarith : u < 1)])
    (by linarith [Fl.unitErr_small hu0 hu2] : 1 + Fl.unitErr u ≤ 251 / 250) 2).trans (by norm_num))
  refine Fl.columns_off hu0 hu2 hg hcs (hdot _ _) (hdot _ _) (hdot _ _) hoff ?_ ?_
  · intro i
    have : X i p = ps (s.X i p) v.1 (s.X i q) v.2 := by
      rw [hX]; unfold Fl.givensRight; simp only [Matrix.of_apply]; rw [if_neg hpq, if_pos trivial]
    rw [this]
    exact Fl.ps_small h hu2 hps _ _ _ _
  · intro i
    have : X i q = pd (s.X i q) v.1 (s.X i p) v.2 := by
      rw [hX]; unfold Fl.givensRight; simp only [Matrix.of_apply]; rw [if_pos trivial, one_mul, Fl.pd_idem h hpd]
    rw [this]
    exact Fl.pd_small h hu2 hpd _ _ _ _

/-- C106: the two rotations that `DecomposeSVD2x2` finds make the matrix diagonal, up to rounding errors relative to its largest element. -/
theorem C106_annihilate (h : Rounding fl u) (h1 : fl 1 = 1) (hu : 1000 * u ≤ 1) {ps pd : ℝ → ℝ → ℝ → ℝ → ℝ} (hps : Fl.IsProdSum fl ps)
    (hpd : Fl.IsProdDiff fl pd) {hyp : ℝ → ℝ → ℝ → ℝ} (hh : Fl.IsHypot w hyp) (hw0 : 0 ≤ w) (hw : w ≤ 2 * u) (zs : ZeroSigns ℝ) (a11 a12 a21 a22 : ℝ) :
    let d := Fl.decomposeSVD2 fl ps pd hyp zs a11 a12 a21 a22
    let D := !![d.cu, -d.su; d.su, d.cu].transpose * !![a11, a12; a21, a22] * !![d.cv, d.sv; -d.sv, d.cv]
    |D 0 1| ≤ 600 * u * max (max |a11| |a12|) (max |a21| |a22|) ∧ |D 1 0| ≤ 600 * u * max (max |a11| |a12|) (max |a21| |a22|) := by
  intro d D
  obtain ⟨e1, e2⟩ := Fl.svd2_off h h1 (by linarith) hps hpd hh hw0 hw zs a11 a12 a21 a22
  have hm : 0 ≤ max (max |a11| |a12|) (max |a21| |a22|) := (abs_nonneg a11).trans ((le_max_left _ _).trans (le_max_left _ _))
  have hu0 := mul_nonneg h.u_nonneg hm
  have f1 : D 0 1 = d.cu * (a11 * d.sv + a12 * d.cv) + d.su * (a21 * d.sv + a22 * d.cv) := by
    show (!![d.cu, -d.su; d.su, d.cu].transpose * !![a11, a12; a21, a22] * !![d.cv, d.sv; -d.sv, d.cv]) 0 1 = _
    simp [Matrix.mul_apply, Fin.sum_univ_two]
    ring
  have f2 : D 1 0 = d.cu * (a21 * d.cv - a22 * d.sv) - d.su * (a11 * d.cv - a12 * d.sv) := by
    show (!![d.cu, -d.su; d.su, d.cu].transpose * !![a11, a12; a21, a22] * !![d.cv, d.sv; -d.sv, d.cv]) 1 0 = _
    simp [Matrix.mul_apply, Fin.sum_univ_two]
    ring
  rw [f1, f2]
  exact ⟨e1.trans (by linarith), e2.trans (by linarith)⟩

/-- One computed element of the matrix after both rotations. -/
private theorem two_roundings {x y x' y' c s c' s' sc a b z t : ℝ} (hsc : 0 ≤ sc) (hu0 : 0 ≤ u) (hu2 : u ≤ 1 / 1000) (hcs : c ^ 2 + s ^ 2 ≤ 103 / 100)
    (hcs' : c' ^ 2 + s' ^ 2 ≤ 103 / 100) (hx : |x' - (x * c + y * s)| ≤ 302 / 100 * u * (|x| * |c| + |y| * |s|))
    (hy : |y' - (a * c + b * s)| ≤ 302 / 100 * u * (|a| * |c| + |b| * |s|)) (hxs : |x| ≤ sc) (hys : |y| ≤ sc) (has : |a| ≤ sc) (hbs : |b| ≤ sc)
    (hz : |z - (x' * c' + y' * s')| ≤ 201 / 100 * u * (|x'| * |c'| + |y'| * |s'|)) (ht : t = (x * c + y * s) * c' + (a * c + b * s) * s') : |z - t| ≤ 12 * u * sc := by
  have l1 := Fl.lin_bd hxs hys hcs
  have l2 := Fl.lin_bd has hbs hcs
  have e1 : |x' - (x * c + y * s)| ≤ 435 / 100 * u * sc := hx.trans (by have := mul_le_mul_of_nonneg_left l1 (by positivity : 0 ≤ 302 / 100 * u); nlinarith [mul_nonneg hu0 hsc])
  have e2 : |y' - (a * c + b * s)| ≤ 435 / 100 * u * sc := hy.trans (by have := mul_le_mul_of_nonneg_left l2 (by positivity : 0 ≤ 302 / 100 * u); nlinarith [mul_nonneg hu0 hsc])
  have k : u * sc ≤ 1 / 1000 * sc := mul_le_mul_of_nonneg_right hu2 hsc
  have n1 : |x'| ≤ 145 / 100 * sc := by
    have t := abs_add_le (x' - (x * c + y * s)) (x * c + y * s)
    rw [sub_add_cancel] at t
    have := Fl.lin_abs hxs hys hcs
    linarith
  have n2 : |y'| ≤ 145 / 100 * sc := by
    have t := abs_add_le (y' - (a * c + b * s)) (a * c + b * s)
    rw [sub_add_cancel] at t
    have := Fl.lin_abs has hbs hcs
    linarith
  have l3 := Fl.lin_bd n1 n2 hcs'
  have l4 := Fl.lin_abs e1 e2 hcs'
  have e3 : z - t = (z - (x' * c' + y' * s')) + ((x' - (x * c + y * s)) * c' + (y' - (a * c + b * s)) * s') := by rw [ht]; ring
  rw [e3]
  refine (abs_add_le _ _).trans ?_
  have := mul_le_mul_of_nonneg_left l3 (by positivity : 0 ≤ 201 / 100 * u)
  have := mul_nonneg hu0 hsc
  linarith

/-- C106: the rotation of one pair leaves little of the two elements of the working matrix that it is meant to remove. -/
theorem C106_rotate (h : Rounding fl u) (h1 : fl 1 = 1) (hu : 1000 * u ≤ 1) {ps pd : ℝ → ℝ → ℝ → ℝ → ℝ} (hps : Fl.IsProdSum fl ps)
    (hpd : Fl.IsProdDiff fl pd) {hyp : ℝ → ℝ → ℝ → ℝ} (hh : Fl.IsHypot w hyp) (hw0 : 0 ≤ w) (hw : w ≤ 2 * u) (zs : ZeroSigns ℝ) (p q : Fin r) (hpq : p ≠ q)
    (s : TwoState ℝ r) :
    let X := (Fl.twoRotate fl ps pd hyp zs p q s).X
    let largest := max (max |s.X p p| |s.X p q|) (max |s.X q p| |s.X q q|)
    |X p q| ≤ 600 * u * largest ∧ |X q p| ≤ 600 * u * largest := by
  have hu0 := h.u_nonneg
  have hu2 : u ≤ 1 / 1000 := by linarith
  intro X largest
  have hη := Fl.twoErr_small hu0 hu2 hw0 hw h
  have hK := Fl.svd2_unit h h1 (by linarith : u < 1) hps pd hh hw0 (by linarith) (by linarith) zs (s.X p p) (s.X p q) (s.X q p) (s.X q q)
  obtain ⟨e1, e2⟩ := Fl.svd2_off h h1 hu2 hps hpd hh hw0 hw zs (s.X p p) (s.X p q) (s.X q p) (s.X q q)
  have hX : X = (Fl.twoRotate fl ps pd hyp zs p q s).X := rfl
  have hl : largest = max (max |s.X p p| |s.X p q|) (max |s.X q p| |s.X q q|) := rfl
  rw [← hl] at e1 e2
  have m1 : |s.X p p| ≤ largest := (le_max_left _ _).trans (le_max_left _ _)
  have m2 : |s.X p q| ≤ largest := (le_max_right _ _).trans (le_max_left _ _)
  have m3 : |s.X q p| ≤ largest := (le_max_left _ _).trans (le_max_right _ _)
  have m4 : |s.X q q| ≤ largest := (le_max_right _ _).trans (le_max_right _ _)
  clear_value X largest
  have hl0 : 0 ≤ largest := (abs_nonneg _).trans m1
  unfold Fl.twoRotate at hX
  simp only at hX
  generalize Fl.decomposeSVD2 fl ps pd hyp zs (s.X p p) (s.X p q) (s.X q p) (s.X q q) = d at *
  rw [hK.exact_su] at hX
  obtain ⟨hU, -⟩ := hK.left.sq_bd hη
  obtain ⟨hV, -⟩ := hK.right.sq_bd hη
  have hdet := hK.det
  have hd2 : d.det ^ 2 = 1 := by rw [← sq_abs, hdet, one_pow]
  have g3 : (1 + u) ^ (1 + 0 + 2) - 1 ≤ 302 / 100 * u := by
    norm_num
    nlinarith [mul_nonneg hu0 hu0, mul_nonneg (mul_nonneg hu0 hu0) (by linarith : 0 ≤ 1 / 1000 - u)]
  have hsu : |-d.det * d.su| = |d.su| := by rw [abs_mul, abs_neg, hdet, one_mul]
  have rowp : ∀ j, |Fl.givensLeft fl ps pd s.X p q d.cu (-d.det * d.su) d.det p j - (s.X p j * d.cu + s.X q j * d.su)| ≤
      302 / 100 * u * (|s.X p j| * |d.cu| + |s.X q j| * |d.su|) := by
    intro j
    have := (((Near.exact (u := u) (s.X p j)).mono h (Nat.zero_le 1)).pd h hpd (Near.exact d.cu) (Fl.near_unit_mul h hdet (x := s.X q j)) (Near.exact (-d.det * d.su))).err
    rw [show s.X p j * d.cu - d.det * s.X q j * (-d.det * d.su) = s.X p j * d.cu + s.X q j * d.su by linear_combination s.X q j * d.su * hd2, hsu] at this
    unfold Fl.givensLeft
    simp only [Matrix.of_apply]
    rw [if_neg hpq, if_pos trivial]
    exact this.trans (mul_le_mul_of_nonneg_right g3 (by positivity))
  have rowq : ∀ j, |Fl.givensLeft fl ps pd s.X p q d.cu (-d.det * d.su) d.det q j - (d.det * s.X q j * d.cu + -(d.det * s.X p j) * d.su)| ≤
      302 / 100 * u * (|d.det * s.X q j| * |d.cu| + |-(d.det * s.X p j)| * |d.su|) := by
    intro j
    have := (Fl.near_ps h hps (Fl.near_unit_mul h hdet (x := s.X q j)) (Near.exact d.cu) ((Near.exact (u := u) (s.X p j)).mono h (Nat.zero_le 1)) (Near.exact (-d.det * d.su))).err
    rw [show d.det * s.X q j * d.cu + s.X p j * (-d.det * d.su) = d.det * s.X q j * d.cu + -(d.det * s.X p j) * d.su by ring, hsu] at this
    unfold Fl.givensLeft
    simp only [Matrix.of_apply]
    rw [if_pos trivial, abs_neg, abs_mul d.det, abs_mul d.det, hdet, one_mul, one_mul]
    exact this.trans (mul_le_mul_of_nonneg_right g3 (by positivity))
  generalize Fl.givensLeft fl ps pd s.X p q d.cu (-d.det * d.su) d.det = X1 at *
  have xpq : X p q = pd (X1 p q) d.cv (X1 p p) (-d.sv) := by
    rw [hX]; unfold Fl.givensRight; simp only [Matrix.of_apply]; rw [if_pos trivial, one_mul, Fl.pd_idem h hpd]
  have xqp : X q p = ps (X1 q p) d.cv (X1 q q) (-d.sv) := by
    rw [hX]; unfold Fl.givensRight; simp only [Matrix.of_apply]; rw [if_neg hpq, if_pos trivial]
  have hV' : d.cv ^ 2 + (-d.sv) ^ 2 ≤ 103 / 100 := by rwa [neg_sq]
  have hk := mul_nonneg hu0 hl0
  constructor
  · have hz : |X p q - (X1 p q * d.cv + X1 p p * d.sv)| ≤ 201 / 100 * u * (|X1 p q| * |d.cv| + |X1 p p| * |d.sv|) := by
      have := Fl.pd_small h hu2 hpd (X1 p q) d.cv (X1 p p) (-d.sv)
      rwa [abs_neg, mul_neg, sub_neg_eq_add, ← xpq] at this
    have := two_roundings hl0 hu0 hu2 hU hV (rowp q) (rowp p) m2 m4 m1 m3 hz rfl
    have t := abs_add_le (X p q - ((s.X p q * d.cu + s.X q q * d.su) * d.cv + (s.X p p * d.cu + s.X q p * d.su) * d.sv))
      ((s.X p q * d.cu + s.X q q * d.su) * d.cv + (s.X p p * d.cu + s.X q p * d.su) * d.sv)
    rw [sub_add_cancel] at t
    rw [show (s.X p q * d.cu + s.X q q * d.su) * d.cv + (s.X p p * d.cu + s.X q p * d.su) * d.sv =
      d.cu * (s.X p p * d.sv + s.X p q * d.cv) + d.su * (s.X q p * d.sv + s.X q q * d.cv) by ring] at t this
    linarith
  · have hz := Fl.ps_small h hu2 hps (X1 q p) d.cv (X1 q q) (-d.sv)
    rw [← xqp] at hz
    have := two_roundings hl0 hu0 hu2 hU hV' (rowq p) (rowq q) (by rw [abs_mul, hdet, one_mul]; exact m3) (by rw [abs_neg, abs_mul, hdet, one_mul]; exact m1)
      (by rw [abs_mul, hdet, one_mul]; exact m4) (by rw [abs_neg, abs_mul, hdet, one_mul]; exact m2) hz rfl
    have e : (d.det * s.X q p * d.cu + -(d.det * s.X p p) * d.su) * d.cv + (d.det * s.X q q * d.cu + -(d.det * s.X p q) * d.su) * -d.sv =
      d.det * (d.cu * (s.X q p * d.cv - s.X q q * d.sv) - d.su * (s.X p p * d.cv - s.X p q * d.sv)) := by ring
    rw [e] at this
    have t := abs_add_le (X q p - d.det * (d.cu * (s.X q p * d.cv - s.X q q * d.sv) - d.su * (s.X p p * d.cv - s.X p q * d.sv)))
      (d.det * (d.cu * (s.X q p * d.cv - s.X q q * d.sv) - d.su * (s.X p p * d.cv - s.X p q * d.sv)))
    rw [sub_add_cancel, abs_mul d.det, hdet, one_mul] at t
    linarith

/-- The sweep over the only pair of a matrix with two rows. -/
private theorem sweep_two {ps pd : ℝ → ℝ → ℝ → ℝ → ℝ} {hyp : ℝ → ℝ → ℝ → ℝ} {tol : ℝ} (zs : ℕ → Fin 2 → Fin 2 → ZeroSigns ℝ) (t : ℕ) (s : TwoState ℝ 2) :
    Fl.twoSweep fl ps pd hyp tol zs t s = Fl.twoStep fl ps pd hyp tol (zs t 0 1) 0 1 (s, 0) := by
  unfold Fl.twoSweep
  have i1 : ∀ s, forUp 2 ((1 : Fin 2).val + 1) (fun q s => Fl.twoStep fl ps pd hyp tol (zs t 1 q) 1 q s) s = s := fun s => forUp_ge (by simp)
  have i0 : ∀ s, forUp 2 ((0 : Fin 2).val + 1) (fun q s => Fl.twoStep fl ps pd hyp tol (zs t 0 q) 0 q s) s = Fl.twoStep fl ps pd hyp tol (zs t 0 1) 0 1 s := by
    intro s
    rw [forUp_step (by simp), forUp_ge (by simp)]
    rfl
  rw [forUp_step (by simp), forUp_step (by simp), forUp_ge (by simp)]
  exact (i1 _).trans (i0 _)

/-- C106: for matrices with two rows one rotation is enough, so that without any condition on the last sweep the factors reproduce the matrix up to rounding
errors. -/
theorem C106_two_rows (h : Rounding fl u) (h1 : fl 1 = 1) (hu : 1000 * u ≤ 1) {ps pd : ℝ → ℝ → ℝ → ℝ → ℝ} (hps : Fl.IsProdSum fl ps)
    (hpd : Fl.IsProdDiff fl pd) {hyp : ℝ → ℝ → ℝ → ℝ} (hh : Fl.IsHypot w hyp) (hw0 : 0 ≤ w) (hw : w ≤ 2 * u) {tol : ℝ} (htol : 0 ≤ tol)
    {big big' : ℝ} (hbig : big' < big) (zs : ℕ → Fin 2 → Fin 2 → ZeroSigns ℝ) (hrn : n + 1 ≤ 2) (sweeps : ℕ) (A : Matrix (Fin 2) (Fin (n + 1)) ℝ)
    (d : SVD ℝ 2 (n + 1) (n + 1)) (hd : Fl.svdTwoSided fl ps pd hyp tol big big' zs hrn sweeps A = some d) :
    frob (d.U * Matrix.diagonal d.S * d.V - A) ≤
      ((1 + u) ^ 2 * (1 + jacobi2Err u w (2 * sweeps)) * (1 + Real.sqrt 2 * jacobi2Err u w sweeps) ^ 2 - 1 +
        2 * max tol (1200 * u * (1 + u) * (1 + jacobi2Err u w (2 * sweeps)))) * frob A := by
  have hu0 := h.u_nonneg
  have hu1 : u < 1 := by linarith
  have hη : Fl.twoErr u w < 1 := by linarith [Fl.twoErr_small hu0 (by linarith) hw0 hw h]
  have hε := Fl.rotErr_nonneg h ((Fl.unitErr_nonneg h hu1).trans (Fl.unitErr_le_twoErr h hu1 hw0 (by linarith)))
  have hηe : Fl.twoErr u w = cosSinMax u w - 1 := by
    unfold Fl.twoErr Fl.hypErr Fl.unitErr cosSinMax
    ring
  have hre : Fl.rotErr u (Fl.twoErr u w) = rotation2Err u w := by
    rw [hηe]
    unfold Fl.rotErr rotation2Err
    ring
  have hj : ∀ k, 1 + jacobi2Err u w k = (1 + Fl.rotErr u (Fl.twoErr u w)) ^ k := by
    intro k
    unfold jacobi2Err
    rw [hre]
    ring
  have key := C106_reconstruct h h1 hu1 hps hpd hh hw0 (by linarith) (by linarith) htol big big' zs hrn sweeps A d hd
    (θ := max tol (1200 * u * (1 + u) * (1 + jacobi2Err u w (2 * sweeps)))) (htol.trans (le_max_left _ _)) ?_
  · simpa using key
  clear d hd
  intro x hx
  set B := (Fl.twoInit fl A (matScaleElements A)).X with hB
  have hBn : frob B ≤ 2 * (1 + u) := by
    have : ∀ i j, |B i j| ≤ 1 + u := by
      intro i j
      rw [hB]
      unfold Fl.twoInit
      simp only [Matrix.of_apply]
      split
      · rename_i hj
        refine (Fl.abs_fl_le h _).2.trans ?_
        have g : |A i ⟨j, hj⟩| ≤ matScaleElements A := by
          refine le_trans ?_ ((le_matScaleElements A).2 i)
          have := (le_scaleElements (A i) ⟨j, hj⟩).1
          simpa using this
        have : |A i ⟨j, hj⟩ / matScaleElements A| ≤ 1 := by
          rw [abs_div, abs_of_nonneg (le_matScaleElements A).1]
          exact div_le_one_of_le₀ g (le_matScaleElements A).1
        nlinarith
      · rw [abs_zero]; linarith
    rw [frob]
    rw [Real.sqrt_le_left (by linarith)]
    have q : ∀ i j, B i j ^ 2 ≤ (1 + u) ^ 2 := fun i j => by rw [← sq_abs]; exact pow_le_pow_left₀ (abs_nonneg _) (this i j) 2
    simp only [Fin.sum_univ_two]
    have := q 0 0; have := q 0 1; have := q 1 0; have := q 1 1
    nlinarith
  -- the elements beside the diagonal after a sweep
  have hsweep : ∀ k t s, (∃ P Q, Fl.TwoErr fl (Fl.rotErr u (Fl.twoErr u w)) B (n + 1) s k P Q) → ∀ i j, i ≠ j →
      |(Fl.twoSweep fl ps pd hyp tol zs t s).1.X i j| ≤ max tol (600 * u * ((1 + Fl.rotErr u (Fl.twoErr u w)) ^ (2 * k) * (2 * (1 + u)))) := by
    rintro k t s ⟨P, Q, hP⟩
    rw [sweep_two]
    have hXn : frob s.X ≤ (1 + Fl.rotErr u (Fl.twoErr u w)) ^ (2 * k) * (2 * (1 + u)) := by
      have e : s.X = (s.X - P.transpose * B * Q.transpose) + P.transpose * B * Q.transpose := by abel
      rw [e]
      refine (frob_add_le _ _).trans ?_
      have f : frob (P.transpose * B * Q.transpose) = frob B := by
        rw [frob_mul_orth (by rw [Matrix.transpose_transpose]; exact hP.unitQ), frob_orth_mul (by rw [Matrix.transpose_transpose]; exact mul_eq_one_comm.1 hP.unitP)]
      rw [f]
      have := hP.X
      have := mul_le_mul_of_nonneg_left hBn (by positivity : 0 ≤ (1 + Fl.rotErr u (Fl.twoErr u w)) ^ (2 * k))
      linarith
    have hle : max (max |s.X 0 0| |s.X 0 1|) (max |s.X 1 0| |s.X 1 1|) ≤ (1 + Fl.rotErr u (Fl.twoErr u w)) ^ (2 * k) * (2 * (1 + u)) :=
      (max_le (max_le (abs_le_frob s.X 0 0) (abs_le_frob s.X 0 1)) (max_le (abs_le_frob s.X 1 0) (abs_le_frob s.X 1 1))).trans hXn
    unfold Fl.twoStep
    simp only
    split
    · have hr := C106_rotate h h1 hu hps hpd hh hw0 hw (zs t 0 1) 0 1 (by norm_num) s
      simp only at hr
      have hm := mul_le_mul_of_nonneg_left hle (by linarith : 0 ≤ 600 * u)
      intro i j hij
      refine le_trans ?_ (le_max_right _ _)
      fin_cases i <;> fin_cases j
      · exact absurd rfl hij
      · exact hr.1.trans hm
      · exact hr.2.trans hm
      · exact absurd rfl hij
    · rename_i hgt
      have := max_le_iff.1 (not_lt.1 hgt)
      intro i j hij
      refine le_trans ?_ (le_max_left _ _)
      fin_cases i <;> fin_cases j
      · exact absurd rfl hij
      · exact this.1
      · exact this.2
      · exact absurd rfl hij
  -- the loop makes at least one sweep
  have hmono : ∀ {k l : ℕ}, k ≤ l → max tol (600 * u * ((1 + Fl.rotErr u (Fl.twoErr u w)) ^ (2 * k) * (2 * (1 + u)))) ≤
      max tol (600 * u * ((1 + Fl.rotErr u (Fl.twoErr u w)) ^ (2 * l) * (2 * (1 + u)))) := by
    intro k l hkl
    have hp : (1 + Fl.rotErr u (Fl.twoErr u w)) ^ (2 * k) ≤ (1 + Fl.rotErr u (Fl.twoErr u w)) ^ (2 * l) := pow_le_pow_right₀ (by linarith) (by omega)
    have := mul_le_mul_of_nonneg_right hp (by linarith : 0 ≤ 2 * (1 + u))
    exact max_le_max le_rfl (mul_le_mul_of_nonneg_left this (by linarith))
  have hinit : ∃ P Q, Fl.TwoErr fl (Fl.rotErr u (Fl.twoErr u w)) B (n + 1) (Fl.twoInit fl A (matScaleElements A)) 0 P Q := by
    rw [hB]; exact ⟨1, 1, Fl.TwoErr.init h _ A _⟩
  cases sweeps with
  | zero => simp [jacobiLoop] at hx
  | succ m =>
    rw [jacobiLoop, if_pos hbig] at hx
    simp only at hx
    have hN : ∀ k t s, (∃ P Q, Fl.TwoErr fl (Fl.rotErr u (Fl.twoErr u w)) B (n + 1) s k P Q) →
        ∃ P Q, Fl.TwoErr fl (Fl.rotErr u (Fl.twoErr u w)) B (n + 1) (Fl.twoSweep fl ps pd hyp tol zs t s).1 (k + 1) P Q :=
      fun k t s hs => Fl.twoSweep_err h h1 hu1 hps hpd hh hw0 (by linarith) hη htol zs t hs
    have := Fl.jacobiLoop_count (fun k s => (∃ P Q, Fl.TwoErr fl (Fl.rotErr u (Fl.twoErr u w)) B (n + 1) s k P Q) ∧
        ∀ i j, i ≠ j → |s.X i j| ≤ max tol (600 * u * ((1 + Fl.rotErr u (Fl.twoErr u w)) ^ (2 * k) * (2 * (1 + u))))) 1
      (fun k t s hs => ⟨hN k t s hs.1, fun i j hij => (hsweep k t s hs.1 i j hij).trans (hmono (Nat.le_succ k))⟩)
      (fun k l s hkl hs => ⟨by obtain ⟨⟨P, Q, hP⟩, -⟩ := hs; exact ⟨P, Q, hP.mono hε hkl⟩, fun i j hij => (hs.2 i j hij).trans (hmono hkl)⟩)
      m 1 1 _ _ _ x ⟨hN 0 0 _ hinit, fun i j hij => (hsweep 0 0 _ hinit i j hij).trans (hmono (Nat.zero_le 1))⟩ hx
    intro i j hij
    refine (this.2 i j hij).trans (max_le_max le_rfl (le_of_eq ?_))
    rw [hj, show 1 + m * 1 = m + 1 by ring]
    ring

/-! ## Examples -/

/-- Single precision with separate operations and a `std::hypot` that is the rounded square root. -/
private noncomputable def ps24 (a b c d : ℝ) : ℝ := flAway 24 (flAway 24 (a * b) + flAway 24 (c * d))
private noncomputable def pd24 (a b c d : ℝ) : ℝ := flAway 24 (flAway 24 (a * b) - flAway 24 (c * d))
private noncomputable def hyp24 (x y z : ℝ) : ℝ := flAway 24 (Real.sqrt (x ^ 2 + y ^ 2 + z ^ 2))

private theorem single : RoundsToNearest 24 (flAway 24) ∧ Rounding (flAway 24) ((2 : ℝ) ^ (-24 : ℤ)) ∧ flAway 24 1 = 1 ∧ 1000 * (2 : ℝ) ^ (-24 : ℤ) ≤ 1 ∧
    Fl.IsProdSum (flAway 24) ps24 ∧ Fl.IsProdDiff (flAway 24) pd24 ∧ Fl.IsHypot ((2 : ℝ) ^ (-24 : ℤ)) hyp24 := by
  have hn := flAway_roundsToNearest (p := 24) (by norm_num)
  have hr : Rounding (flAway 24) ((2 : ℝ) ^ (-24 : ℤ)) := hn.rounding (by norm_num)
  refine ⟨hn, hr, ?_, by norm_num, fun _ _ _ _ => Or.inl rfl, fun _ _ _ _ => Or.inl rfl, fun x y z => ?_⟩
  · have := hn.nearest 1 1 ⟨1, 0, by norm_num, by norm_num⟩
    rw [sub_self, abs_zero] at this
    exact sub_eq_zero.1 (abs_nonpos_iff.1 this)
  · have := hr.err (Real.sqrt (x ^ 2 + y ^ 2 + z ^ 2))
    rwa [abs_of_nonneg (Real.sqrt_nonneg _)] at this

/-- In single precision, the symmetric matrix with rows 1, 2 and 2, 5 becomes diagonal up to 4e-6. -/
example : let v0 := Fl.diagonalizeHermitian (flAway 24) ps24 hyp24 false 1 2 5
    let v := Fl.minimizeRotation (flAway 24) v0.1 v0.2
    |(!![v.1, -v.2; v.2, v.1].transpose * !![1, 2; 2, 5] * !![v.1, -v.2; v.2, v.1] : Matrix (Fin 2) (Fin 2) ℝ) 0 1| ≤ 4 / 1000000 := by
  obtain ⟨-, h, h1, hu, hps, hpd, hh⟩ := single
  exact (C104_annihilate h h1 hu hps hh (by norm_num) false 1 2 5).trans (by rw [abs_two]; norm_num)

/-- The rounded inner product meets the condition on the sums of products, and the columns of the matrix with rows 1, 2 and 3, 4 are orthogonal after one
rotation up to 6e-5. -/
example : let X := (Fl.oneRotate (flAway 24) ps24 pd24 hyp24 (fun x y => flAway 24 (∑ i, x i * y i)) false 0 1 ⟨!![1, 2; 3, 4], 1⟩).X
    |∑ i, X i 0 * X i 1| ≤ 6 / 100000 := by
  obtain ⟨-, h, h1, hu, hps, hpd, hh⟩ := single
  refine (C104_columns h h1 hu hps hpd hh (by norm_num) (g := 2 ^ (-24 : ℤ)) (by positivity) (fun x y => ?_) false 0 1 (by norm_num) ⟨!![1, 2; 3, 4], 1⟩).trans ?_
  · refine (h.err _).trans (mul_le_mul_of_nonneg_left ((Finset.abs_sum_le_sum_abs _ _).trans_eq ?_) h.u_nonneg)
    exact Finset.sum_congr rfl fun i _ => abs_mul _ _
  · simp [Fin.sum_univ_two]
    norm_num

/-- In single precision, the rotations found for the matrix with rows 1, 2 and 3, 4 make it diagonal up to 2e-4. -/
example : let d := Fl.decomposeSVD2 (flAway 24) ps24 pd24 hyp24 ⟨false, 1, norm_one⟩ 1 2 3 4
    |(!![d.cu, -d.su; d.su, d.cu].transpose * !![1, 2; 3, 4] * !![d.cv, d.sv; -d.sv, d.cv] : Matrix (Fin 2) (Fin 2) ℝ) 0 1| ≤ 2 / 10000 := by
  obtain ⟨-, h, h1, hu, hps, hpd, hh⟩ := single
  refine (C106_annihilate h h1 hu hps hpd hh (by positivity) (by norm_num) ⟨false, 1, norm_one⟩ 1 2 3 4).1.trans ?_
  norm_num [abs_of_pos]

/-- The same for one rotation of a matrix with three rows. -/
example (U V : Matrix (Fin 3) (Fin 3) ℝ) : |(Fl.twoRotate (flAway 24) ps24 pd24 hyp24 ⟨false, 1, norm_one⟩ 0 2 ⟨U, !![1, 2, 3; 4, 5, 6; 7, 8, 9], V⟩).X 0 2| ≤ 4 / 10000 := by
  obtain ⟨-, h, h1, hu, hps, hpd, hh⟩ := single
  refine (C106_rotate h h1 hu hps hpd hh (by positivity) (by norm_num) ⟨false, 1, norm_one⟩ 0 2 (by decide) ⟨U, !![1, 2, 3; 4, 5, 6; 7, 8, 9], V⟩).1.trans ?_
  show 600 * 2 ^ (-24 : ℤ) * max (max |(1 : ℝ)| |3|) (max |7| |9|) ≤ 4 / 10000
  norm_num [abs_of_pos]

/-- A matrix with two rows that is not diagonal has a decomposition in single precision, to which the bound applies. -/
example (zs : ℕ → Fin 2 → Fin 2 → ZeroSigns ℝ) : ∃ (sweeps : ℕ) (d : SVD ℝ 2 (1 + 1) (1 + 1)),
    Fl.svdTwoSided (flAway 24) ps24 pd24 hyp24 (1 / 10 * 2 ^ (-23 : ℤ)) 8 7 zs (by norm_num) sweeps !![1, 2; 3, 4] = some d ∧
    frob (d.U * Matrix.diagonal d.S * d.V - !![1, 2; 3, 4]) ≤
      ((1 + 2 ^ (-24 : ℤ)) ^ 2 * (1 + jacobi2Err (2 ^ (-24 : ℤ)) (2 ^ (-24 : ℤ)) (2 * sweeps)) *
        (1 + Real.sqrt 2 * jacobi2Err (2 ^ (-24 : ℤ)) (2 ^ (-24 : ℤ)) sweeps) ^ 2 - 1 +
        2 * max (1 / 10 * 2 ^ (-23 : ℤ)) (1200 * 2 ^ (-24 : ℤ) * (1 + 2 ^ (-24 : ℤ)) * (1 + jacobi2Err (2 ^ (-24 : ℤ)) (2 ^ (-24 : ℤ)) (2 * sweeps)))) *
        frob !![1, 2; 3, 4] := by
  obtain ⟨hn, h, h1, hu, hps, hpd, hh⟩ := single
  obtain ⟨k, d, hd⟩ := C106_terminates (p := 24) (by norm_num) hn hps hpd hyp24 (by positivity : (0 : ℝ) < 1 / 10 * 2 ^ (-23 : ℤ)) 8 7 zs
    (by norm_num : 1 + 1 ≤ 2) !![1, 2; 3, 4] (fun h => by
      have := congrFun (congrFun h 0) 0
      simp at this)
  exact ⟨k, d, hd k le_rfl, C106_two_rows h h1 hu hps hpd hh (by positivity) (by norm_num) (by positivity) (by norm_num) zs _ k _ d (hd k le_rfl)⟩

end Mathter.Props
