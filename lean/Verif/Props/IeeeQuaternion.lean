import Verif.Model.IeeeQuaternion
import Verif.Lemmas.IeeeFinite
import Verif.Props.Ieee
import Verif.Props.IeeeFinite
import Verif.Props.RoundedQuaternion

/-!
# C140: finite quaternion results are accurate unless a squared length overflows

The bounds of C99 suppose that nothing overflows. Here results may overflow anywhere on the way, and the evaluation goes on with infinities and NaN.
Errors are measured element by element, against Mathlib's quaternions.
-/

namespace Mathter.Props
open Mathter Red Quat Fx
open scoped Quaternion
variable {l l1 l2 : QLayout} {dim : ℕ} {c : Cfg} {p : Bool} {fl : ℝ → Fx} {fl₀ : ℝ → ℝ} {u : ℝ}

/-- The quaternion of the finite values `q`. -/
def finQ (q : Quat ℝ l) : Quat Fx l := ⟨fun t => .fin (q.elements t)⟩

/-- The coefficients of a quaternion in the order 1, i, j, k. -/
def coeffs (x : ℍ[ℝ]) : Fin 4 → ℝ := ![x.re, x.imI, x.imJ, x.imK]

private theorem canonical_finQ (q : Quat ℝ l) (t : Fin 4) : (finQ q).canonical t = .fin (q.canonical t) := rfl

private theorem coeffs_toH (q : Quat ℝ l) : coeffs (toH q) = q.canonical := by
  funext t
  fin_cases t <;> rfl

private theorem coeffs_le (x : ℍ[ℝ]) (t : Fin 4) : |coeffs x t| ≤ ‖x‖ := by
  have e : ‖x‖ = Real.sqrt (x.re ^ 2 + x.imI ^ 2 + x.imJ ^ 2 + x.imK ^ 2) := by
    rw [← Quaternion.normSq_def', Quaternion.normSq_eq_norm_mul_self, Real.sqrt_mul_self (norm_nonneg _)]
  rw [e]
  apply Real.abs_le_sqrt
  have h0 := sq_nonneg x.re
  have h1 := sq_nonneg x.imI
  have h2 := sq_nonneg x.imJ
  have h3 := sq_nonneg x.imK
  fin_cases t
  · change x.re ^ 2 ≤ _; linarith
  · change x.imI ^ 2 ≤ _; linarith
  · change x.imJ ^ 2 ≤ _; linarith
  · change x.imK ^ 2 ≤ _; linarith

private theorem coeffs_sub (x y : ℍ[ℝ]) (t : Fin 4) : coeffs (x - y) t = coeffs x t - coeffs y t := by
  fin_cases t <;> rfl

private theorem fl0_zero (h : Rounding fl₀ u) : fl₀ 0 = 0 := by simpa using h.err 0

private theorem signs (e : Fin 4 → ℝ) (t : Fin 4) :
    Tracks ((![.fin (e 0), .fin (e 1), .fin (e 2), .fin (e 3)] : Fin 4 → Fx) t) ((![e 0, e 1, e 2, e 3] : Fin 4 → ℝ) t) := by
  fin_cases t <;> exact tracks_fin _

private theorem vmul_tracks {n : ℕ} (hf : Overflows fl fl₀) {a b : Fin n → Fx} {x y : Fin n → ℝ} (ha : ∀ t, Tracks (a t) (x t)) (hb : ∀ t, Tracks (b t) (y t)) (t : Fin n) :
    Tracks (Ie.qvmul fl a b t) (Fl.vmul fl₀ x y t) := (ha t).mul hf (hb t)

private theorem vadd_tracks {n : ℕ} (hf : Overflows fl fl₀) {a b : Fin n → Fx} {x y : Fin n → ℝ} (ha : ∀ t, Tracks (a t) (x t)) (hb : ∀ t, Tracks (b t) (y t)) (t : Fin n) :
    Tracks (Ie.qvadd fl a b t) (Fl.vadd fl₀ x y t) := (ha t).add hf (hb t)

private theorem qmul_tracks (hf : Overflows fl fl₀) {a : Quat Fx l1} {b : Quat Fx l2} {x : Quat ℝ l1} {y : Quat ℝ l2}
    (ha : ∀ t, Tracks (a.canonical t) (x.canonical t)) (hb : ∀ t, Tracks (b.canonical t) (y.canonical t)) (t : Fin 4) :
    Tracks ((Ie.qmul fl a b).canonical t) ((Fl.qmul fl₀ x y).canonical t) := by
  unfold Ie.qmul Fl.qmul
  rw [canonical_ofCanonical, canonical_ofCanonical]
  exact vadd_tracks hf (vadd_tracks hf (vadd_tracks hf
    (vmul_tracks hf (fun t => ha _) (fun t => hb _))
    (vmul_tracks hf (vmul_tracks hf (signs ![-1, 1, -1, 1]) (fun t => ha _)) (fun t => hb _)))
    (vmul_tracks hf (vmul_tracks hf (signs ![-1, 1, 1, -1]) (fun t => ha _)) (fun t => hb _)))
    (vmul_tracks hf (vmul_tracks hf (signs ![-1, -1, 1, 1]) (fun t => ha _)) (fun t => hb _)) t

private theorem qconj_tracks (hf : Overflows fl fl₀) (q : Quat ℝ l) (t : Fin 4) :
    Tracks ((Ie.qconj fl (finQ q)).elements t) ((Fl.qconj fl₀ q).elements t) := by
  obtain ⟨t, rfl⟩ := canonIdx_surj l t
  change Tracks ((Ie.qconj fl (finQ q)).canonical t) ((Fl.qconj fl₀ q).canonical t)
  unfold Ie.qconj Fl.qconj
  rw [canonical_ofCanonical, canonical_ofCanonical]
  exact vmul_tracks hf (fun t => tracks_fin _) (signs ![1, -1, -1, -1]) t

private theorem qlen_tracks (hf : Overflows fl fl₀) (conv : Bool) (tb : RTree (batchSize 4 false)) (ts : RTree (4 + 1)) (q : Quat ℝ l) :
    Tracks (Ie.qlengthSquared c p fl conv tb ts (finQ q)) (Fl.qlengthSquared c p fl₀ conv tb ts q) := by
  have h : ∀ i, Tracks ((Vec.ofFn (finQ q).elements : Vec c Fx 4 p).get i) ((Vec.ofFn q.elements : Vec c ℝ 4 p).get i) := fun i => by
    rw [Vec.get_ofFn, Vec.get_ofFn]; exact tracks_fin _
  exact Ie.dot_tracks hf conv tb ts h h

/-- Dividing by something that is not finite gives zero, or nothing finite. -/
private theorem div_nf (a : Fx) {d : Fx} (h : NF d) : Tracks (Fx.div fl a d) 0 := by
  rcases h.cases with rfl | ⟨s, rfl⟩
  · rw [div_nan']; exact nf_nan.tracks _
  · rcases a with _ | t | x
    · exact nf_nan.tracks _
    · exact nf_nan.tracks _
    · exact tracks_fin _

/-- The elements of a computed inverse: those of the rounded inverse if the squared length is finite, zeros otherwise. -/
private theorem qinverse_tracks (hf : Overflows fl fl₀) (conv : Bool) (tb : RTree (batchSize 4 false)) (ts : RTree (4 + 1)) (q : Quat ℝ l) {r : Quat Fx l}
    (hr : Ie.qinverse c p fl conv tb ts (finQ q) = some r) {r₀ : Quat ℝ l} (hr₀ : Fl.qinverse c p fl₀ conv tb ts q = some r₀) :
    (∀ t, Tracks (r.elements t) (r₀.elements t)) ∨ ∀ t, Tracks (r.elements t) 0 := by
  unfold Ie.qinverse at hr
  split at hr
  · cases hr
  cases hr
  unfold Fl.qinverse at hr₀
  split at hr₀
  · cases hr₀
  cases hr₀
  have hl := qlen_tracks (c := c) (p := p) hf conv tb ts q
  rcases hl.cases with e | e
  · left
    intro t
    change Tracks (Fx.div fl _ (Ie.qlengthSquared c p fl conv tb ts (finQ q))) _
    rw [e]
    exact (qconj_tracks hf q t).div hf _
  · exact Or.inr fun t => div_nf _ e

private theorem elements_to_canonical {r : Quat Fx l} {r₀ : Quat ℝ l} (h : ∀ t, Tracks (r.elements t) (r₀.elements t)) (t : Fin 4) :
    Tracks (r.canonical t) (r₀.canonical t) := h _

/-! ## Products -/

/-- C140: every finite element of a product of quaternions is accurate. -/
theorem C140_mul (hf : Overflows fl fl₀) (h : Rounding fl₀ u) (a : Quat ℝ l1) (b : Quat ℝ l2) (ha : ∀ t, fl (a.canonical t) = .fin (a.canonical t)) (t : Fin 4)
    (z : ℝ) (hz : (Ie.qmul fl (finQ a) (finQ b)).canonical t = .fin z) :
    |z - coeffs (toH a * toH b) t| ≤ ((1 + u) ^ 4 - 1) * (‖toH a‖ * ‖toH b‖) := by
  have e := qmul_tracks hf (a := finQ a) (b := finQ b) (x := a) (y := b) (fun t => tracks_fin _) (fun t => tracks_fin _) t z hz
  obtain ⟨h0, h1, h2, h3⟩ := C99_mul_elements h a b fun t => hf.fix (ha t)
  rw [e]
  fin_cases t
  exacts [h0, h1, h2, h3]

/-! ## Inverses -/

/-- C140: if one element of the inverse is finite and not zero, every finite element is accurate. Not covered: the zero quaternion, which comes out when the
squared length overflows (see `C140_inverse_violated`). -/
theorem C140_inverse_partial (hf : Overflows fl fl₀) (h : Rounding fl₀ u) (h2 : (1 + u) ^ 4 < 2) (c : Cfg) (p conv : Bool) (tb : RTree (batchSize 4 false))
    (ts : RTree (4 + 1)) (htb : tb.Valid) (hts : ts.Valid) (q : Quat ℝ l) (hq : ∀ t, fl (q.canonical t) = .fin (q.canonical t)) (h0 : toH q ≠ 0)
    (r : Quat Fx l) (hr : Ie.qinverse c p fl conv tb ts (finQ q) = some r) (hne : ∃ t z, r.canonical t = .fin z ∧ z ≠ 0) (t : Fin 4) (z : ℝ)
    (hz : r.canonical t = .fin z) : |z - coeffs (toH q)⁻¹ t| ≤ (u + ((1 + u) ^ 4 - 1)) / (2 - (1 + u) ^ 4) * ‖(toH q)⁻¹‖ := by
  obtain ⟨r₀, e₀, -, b⟩ := C99_inverse h h2 c p conv tb ts htb hts q (fun t => hf.fix (hq t)) h0
  rcases qinverse_tracks hf conv tb ts q hr e₀ with hh | hh
  · have e := elements_to_canonical hh t z hz
    refine le_trans ?_ b
    rw [e, ← coeffs_toH, ← coeffs_sub]
    exact coeffs_le _ t
  · obtain ⟨s, y, ey, ny⟩ := hne
    exact absurd (hh _ y ey) ny

/-- The assertion holds for every quaternion that is not zero. -/
theorem C140_inverse_defined (hf : Overflows fl fl₀) (h : Rounding fl₀ u) (h2 : (1 + u) ^ 4 < 2) (c : Cfg) (p conv : Bool) (tb : RTree (batchSize 4 false))
    (ts : RTree (4 + 1)) (htb : tb.Valid) (hts : ts.Valid) (q : Quat ℝ l) (hq : ∀ t, fl (q.canonical t) = .fin (q.canonical t)) (h0 : toH q ≠ 0) :
    ∃ r, Ie.qinverse c p fl conv tb ts (finQ q) = some r := by
  obtain ⟨r₀, e₀, -, -⟩ := C99_inverse h h2 c p conv tb ts htb hts q (fun t => hf.fix (hq t)) h0
  unfold Fl.qinverse at e₀
  split at e₀
  · cases e₀
  rename_i hne
  unfold Ie.qinverse
  refine ⟨_, if_neg fun hb => hne ?_⟩
  have hl := qlen_tracks (c := c) (p := p) hf conv tb ts q
  rcases hd : Ie.qlengthSquared c p fl conv tb ts (finQ q) with _ | s | x
  · rw [hd] at hb; cases hb
  · rw [hd] at hb; cases hb
  · rw [hd] at hb
    have hx : x = 0 := of_decide_eq_true hb
    rw [← hl x hd, hx]

/-! ## Rotations -/

private theorem qmul_zero (h : Rounding fl₀ u) (x : Quat ℝ l1) {y : Quat ℝ l2} (hy : ∀ t, y.canonical t = 0) (t : Fin 4) :
    (Fl.qmul fl₀ x y).canonical t = 0 := by
  have z := fl0_zero h
  have hy' : y.canonical = fun _ => 0 := funext hy
  unfold Fl.qmul
  rw [canonical_ofCanonical, hy']
  have hs : ∀ f : Fin 4 → Fin 4, sw (fun _ : Fin 4 => (0 : ℝ)) f = fun _ => 0 := fun _ => rfl
  have hm : ∀ a : Fin 4 → ℝ, Fl.vmul fl₀ a (fun _ => 0) = fun _ => 0 := fun a => by
    funext t; unfold Fl.vmul; rw [mul_zero, z]
  have hv : Fl.vadd fl₀ (fun _ : Fin 4 => (0 : ℝ)) (fun _ => 0) = fun _ => 0 := by
    funext t; unfold Fl.vadd; rw [add_zero, z]
  simp only [hs, hm, hv]

/-- C140: if one element of a rotated vector is finite and not zero, every finite element is accurate. Not covered: the zero vector, which comes out when
the squared length of the quaternion overflows (see `C140_rotate_violated`). -/
theorem C140_rotate_partial (hf : Overflows fl fl₀) (h : Rounding fl₀ u) (h2 : (1 + u) ^ 4 < 2) (c : Cfg) (p conv : Bool) (tb : RTree (batchSize 4 false))
    (ts : RTree (4 + 1)) (htb : tb.Valid) (hts : ts.Valid) (q : Quat ℝ l) (hq : ∀ t, fl (q.canonical t) = .fin (q.canonical t)) (h0 : toH q ≠ 0)
    (v : Fin 3 → ℝ) (w : Fin 3 → Fx) (hw : Ie.qrotate c p fl conv tb ts (finQ q) (fun i => .fin (v i)) = some w) (hne : ∃ i z, w i = .fin z ∧ z ≠ 0)
    (i : Fin 3) (z : ℝ) (hz : w i = .fin z) (x : ℍ[ℝ]) (hx : x = toH q * ⟨0, v 0, v 1, v 2⟩ * (toH q)⁻¹) :
    |z - coeffs x i.succ| ≤ rotErr u * Real.sqrt (v 0 ^ 2 + v 1 ^ 2 + v 2 ^ 2) := by
  obtain ⟨r₀, e₀, -, -⟩ := C99_inverse h h2 c p conv tb ts htb hts q (fun t => hf.fix (hq t)) h0
  obtain ⟨w₀, ew, bw⟩ := C99_rotate h h2 c p conv tb ts htb hts q (fun t => hf.fix (hq t)) h0 v
  have bw := bw x hx
  unfold Ie.qrotate at hw
  rcases hr : Ie.qinverse c p fl conv tb ts (finQ q) with _ | r
  · rw [hr] at hw; cases hw
  rw [hr] at hw
  cases hw
  have tv : ∀ t, Tracks ((Quat.ofVec l fun i => Fx.fin (v i)).canonical t) ((Quat.ofVec l v).canonical t) := fun t => by
    rw [canonical_ofVec, canonical_ofVec]
    refine Fin.cases ?_ (fun i => ?_) t
    · exact tracks_fin _
    · exact tracks_fin _
  have t1 := qmul_tracks hf (a := finQ q) (x := q) (fun t => tracks_fin _) tv
  rcases qinverse_tracks hf conv tb ts q hr e₀ with hh | hh
  · have e := qmul_tracks hf t1 (elements_to_canonical hh) i.succ z hz
    unfold Fl.qrotate at ew
    rw [e₀] at ew
    cases ew
    refine le_trans ?_ bw
    rw [e]
    apply Real.abs_le_sqrt
    have s0 := sq_nonneg ((Fl.qmul fl₀ (Fl.qmul fl₀ q (ofVec l v)) r₀).vec 0 - x.imI)
    have s1 := sq_nonneg ((Fl.qmul fl₀ (Fl.qmul fl₀ q (ofVec l v)) r₀).vec 1 - x.imJ)
    have s2 := sq_nonneg ((Fl.qmul fl₀ (Fl.qmul fl₀ q (ofVec l v)) r₀).vec 2 - x.imK)
    fin_cases i
    · change ((Fl.qmul fl₀ (Fl.qmul fl₀ q (ofVec l v)) r₀).vec 0 - x.imI) ^ 2 ≤ _; linarith
    · change ((Fl.qmul fl₀ (Fl.qmul fl₀ q (ofVec l v)) r₀).vec 1 - x.imJ) ^ 2 ≤ _; linarith
    · change ((Fl.qmul fl₀ (Fl.qmul fl₀ q (ofVec l v)) r₀).vec 2 - x.imK) ^ 2 ≤ _; linarith
  · obtain ⟨i1, z1, e1, n1⟩ := hne
    have e := qmul_tracks hf t1 (b := r) (y := ⟨fun _ => 0⟩) (fun t => hh _) i1.succ z1 e1
    rw [qmul_zero h _ (fun _ => rfl)] at e
    exact absurd e n1

/-! ## Normalisation -/

/-- C140: if one element of a normalised vector is finite and not zero, every finite element is accurate. Not covered: the zero vector, which comes out when
the length overflows (see `C140_normalize_violated`). -/
theorem C140_normalize_partial (hf : Overflows fl fl₀) (h : Rounding fl₀ u) (h2 : (1 + u) ^ (dim + 1) < 2) (conv : Bool) (tb : RTree (batchSize dim false))
    (ts : RTree (dim + 1)) (htb : tb.Valid) (hts : ts.Valid) (v : Vec c Fx dim p) (x : Fin dim → ℝ) (hv : ∀ i, v.get i = .fin (x i)) (h0 : ∃ i, x i ≠ 0)
    (w : Vec c Fx dim (p && p)) (hw : Ie.normalize fl conv tb ts v = some w) (hne : ∃ i z, w.get i = .fin z ∧ z ≠ 0) (i : Fin dim) (z : ℝ)
    (hz : w.get i = .fin z) :
    |z - x i / Real.sqrt (∑ i, x i ^ 2)| ≤ (u + ((1 + u) ^ (dim + 1) - 1)) / (2 - (1 + u) ^ (dim + 1)) * |x i / Real.sqrt (∑ i, x i ^ 2)| := by
  unfold Ie.normalize at hw
  dsimp only at hw
  split at hw
  · cases hw
  cases hw
  have gd : ∀ i, (Ie.divScalar fl conv v (Ie.length fl conv tb ts v)).get i = Fx.div fl (.fin (x i)) (Ie.length fl conv tb ts v) := fun i => by
    unfold Ie.divScalar
    rw [Vec.get_doBinary, Vec.get_fill, hv]
  obtain ⟨i1, z1, e1, n1⟩ := hne
  rw [gd] at e1 hz
  rcases nf_or (Ie.length fl conv tb ts v) with ⟨y, ey⟩ | hn
  · have hy := C124_length hf h conv tb ts htb hts v x hv y ey
    rw [ey] at hz
    have e := (tracks_fin (x i)).div hf y z hz
    have hpos : 0 < Real.sqrt (∑ i, x i ^ 2) := by
      obtain ⟨j, hj⟩ := h0
      exact Real.sqrt_pos.2 (lt_of_lt_of_le (by positivity : 0 < x j ^ 2) (Finset.single_le_sum (f := fun i => x i ^ 2) (fun _ _ => sq_nonneg _) (Finset.mem_univ j)))
    have := quot_err h (x := x i) hpos (by linarith : (1 + u) ^ (dim + 1) - 1 < 1) hy
    rw [e, show (2 : ℝ) - (1 + u) ^ (dim + 1) = 1 - ((1 + u) ^ (dim + 1) - 1) by ring]
    exact this
  · exact absurd (div_nf _ hn z1 e1) n1

/-- C140: so it is for quaternions. -/
theorem C140_normalize_quat_partial (hf : Overflows fl fl₀) (h : Rounding fl₀ u) (h2 : (1 + u) ^ 5 < 2) (c : Cfg) (p conv : Bool) (tb : RTree (batchSize 4 false))
    (ts : RTree (4 + 1)) (htb : tb.Valid) (hts : ts.Valid) (q : Quat ℝ l) (h0 : toH q ≠ 0) (r : Quat Fx l)
    (hr : Ie.qnormalize c p fl conv tb ts (finQ q) = some r) (hne : ∃ t z, r.canonical t = .fin z ∧ z ≠ 0) (t : Fin 4) (z : ℝ) (hz : r.canonical t = .fin z) :
    |z - coeffs (‖toH q‖⁻¹ • toH q) t| ≤ (u + ((1 + u) ^ 5 - 1)) / (2 - (1 + u) ^ 5) * |coeffs (‖toH q‖⁻¹ • toH q) t| := by
  unfold Ie.qnormalize at hr
  rcases hw : Ie.normalize fl conv tb ts (Vec.ofFn (finQ q).elements : Vec c Fx 4 p) with _ | w
  · rw [hw] at hr; cases hr
  rw [hw] at hr
  cases hr
  have hn : Real.sqrt (∑ i, q.elements i ^ 2) = ‖toH q‖ := by
    rw [sum_elements q fun x => x ^ 2, ← Real.sqrt_mul_self (norm_nonneg (toH q)), ← Quaternion.normSq_eq_norm_mul_self, Quaternion.normSq_def']
    rfl
  have h0' : ∃ i, q.elements i ≠ 0 := by
    by_contra hc
    push Not at hc
    apply h0
    rw [← norm_eq_zero, ← hn]
    simp [hc]
  obtain ⟨t1, z1, e1, n1⟩ := hne
  have key := C140_normalize_partial hf h h2 conv tb ts htb hts _ q.elements (fun i => by rw [Vec.get_ofFn]; rfl) h0' w hw ⟨_, z1, e1, n1⟩ (canonIdx l t) z hz
  rw [hn] at key
  have e : coeffs (‖toH q‖⁻¹ • toH q) t = q.elements (canonIdx l t) / ‖toH q‖ := by
    rw [div_eq_inv_mul]
    fin_cases t <;> rfl
  rw [e]
  exact key

/-! ## Silent overflow -/

/-- C140: the length of a vector overflows as soon as the square of an element does, and `Normalize` returns the zero vector, whatever the direction. -/
theorem C140_normalize_violated (hf : RoundsFx fl) (conv : Bool) (tb : RTree (batchSize dim false)) (ts : RTree (dim + 1)) (htb : tb.Valid) (hts : ts.Valid)
    (v : Vec c Fx dim p) (x : Fin dim → ℝ) (hv : ∀ i, v.get i = .fin (x i)) (hb : ∃ i, fl (x i * x i) = .inf false) :
    ∃ w, Ie.normalize fl conv tb ts v = some w ∧ ∀ i, w.get i = .fin 0 := by
  obtain ⟨i, hi⟩ := hb
  have hd : Ie.dot fl conv tb ts v v = .inf false := ie_dot_inf hf conv tb ts htb hts v (fun i => by rw [hv]; simp) ⟨i, by rw [hv]; exact hi⟩
  have hL : Ie.length fl conv tb ts v = .inf false := by unfold Ie.length; rw [hd]; rfl
  unfold Ie.normalize
  dsimp only
  rw [hL]
  refine ⟨_, if_neg (by rw [show ((Fx.inf false == Fx.fin 0) = false) from rfl]; simp), fun i => ?_⟩
  unfold Ie.divScalar
  rw [Vec.get_doBinary, Vec.get_fill, hv]
  rfl

/-- C140: the inverse of a quaternion is zero when the square of an element overflows. Such a quaternion has an inverse of about 2^-64 in single precision. -/
theorem C140_inverse_violated (hf : RoundsFx fl) (h1 : ∀ x, (∃ y, fl x = .fin y) → ∃ y, fl (-x) = .fin y) (c : Cfg) (p conv : Bool) (tb : RTree (batchSize 4 false))
    (ts : RTree (4 + 1)) (htb : tb.Valid) (hts : ts.Valid) (q : Quat ℝ l) (hq : ∀ t, fl (q.canonical t) = .fin (q.canonical t))
    (hb : ∃ t, fl (q.canonical t * q.canonical t) = .inf false) :
    ∃ r, Ie.qinverse c p fl conv tb ts (finQ q) = some r ∧ ∀ t, r.canonical t = .fin 0 := by
  obtain ⟨t, ht⟩ := hb
  have hL : Ie.qlengthSquared c p fl conv tb ts (finQ q) = .inf false :=
    ie_dot_inf hf conv tb ts htb hts _ (fun i => by rw [Vec.get_ofFn]; unfold finQ; simp) ⟨canonIdx l t, by rw [Vec.get_ofFn]; exact ht⟩
  unfold Ie.qinverse
  rw [hL]
  refine ⟨_, if_neg (by rw [show ((Fx.inf false == Fx.fin 0) = false) from rfl]; simp), fun t => ?_⟩
  change Fx.div fl ((Ie.qconj fl (finQ q)).canonical t) (.inf false) = .fin 0
  have : ∃ y, (Ie.qconj fl (finQ q)).canonical t = .fin y := by
    unfold Ie.qconj
    rw [canonical_ofCanonical]
    have m1 : ∀ s, ∃ y, Fx.mul fl (.fin (q.canonical s)) (.fin 1) = .fin y := fun s => ⟨q.canonical s, by unfold Fx.mul; dsimp only; rw [mul_one, hq]⟩
    have m2 : ∀ s, ∃ y, Fx.mul fl (.fin (q.canonical s)) (.fin (-1)) = .fin y := fun s => by
      unfold Fx.mul; dsimp only; rw [mul_neg_one]; exact h1 _ ⟨_, hq s⟩
    fin_cases t
    exacts [m1 0, m2 1, m2 2, m2 3]
  obtain ⟨y, ey⟩ := this
  rw [ey]
  rfl

/-- C140: rotating by such a quaternion gives the zero vector, or nothing finite. -/
theorem C140_rotate_violated (hf : RoundsFx fl) (ho : Overflows fl fl₀) (h : Rounding fl₀ u) (h1 : ∀ x, (∃ y, fl x = .fin y) → ∃ y, fl (-x) = .fin y) (c : Cfg)
    (p conv : Bool) (tb : RTree (batchSize 4 false)) (ts : RTree (4 + 1)) (htb : tb.Valid) (hts : ts.Valid) (q : Quat ℝ l)
    (hq : ∀ t, fl (q.canonical t) = .fin (q.canonical t)) (hb : ∃ t, fl (q.canonical t * q.canonical t) = .inf false) (v : Fin 3 → ℝ) :
    ∃ w, Ie.qrotate c p fl conv tb ts (finQ q) (fun i => .fin (v i)) = some w ∧ ∀ i z, w i = .fin z → z = 0 := by
  obtain ⟨r, er, hr⟩ := C140_inverse_violated hf h1 c p conv tb ts htb hts q hq hb
  refine ⟨_, by unfold Ie.qrotate; rw [er]; rfl, fun i z hz => ?_⟩
  have tv : ∀ t, Tracks ((Quat.ofVec l fun i => Fx.fin (v i)).canonical t) ((Quat.ofVec l v).canonical t) := fun t => by
    rw [canonical_ofVec, canonical_ofVec]
    refine Fin.cases ?_ (fun i => ?_) t
    · exact tracks_fin _
    · exact tracks_fin _
  have t1 := qmul_tracks ho (a := finQ q) (x := q) (fun t => tracks_fin _) tv
  have e := qmul_tracks ho t1 (b := r) (y := ⟨fun _ => 0⟩) (fun t => by rw [hr]; exact tracks_fin _) i.succ z hz
  rw [qmul_zero h _ (fun _ => rfl)] at e
  exact e

/-! ## The hypotheses can be met -/

private theorem sat_over : Overflows flSat fun x => x where
  round x := by
    unfold flSat
    split_ifs
    · exact Or.inr ⟨_, rfl⟩
    · exact Or.inr ⟨_, rfl⟩
    · exact Or.inl rfl
  idem x y h := by
    have h' := h
    unfold flSat at h'
    split_ifs at h'
    cases h'
    exact h

private theorem sat_neg (x : ℝ) (h : ∃ y, flSat x = .fin y) : ∃ y, flSat (-x) = .fin y := by
  obtain ⟨y, h⟩ := h
  unfold flSat at h ⊢
  split_ifs at h
  rw [if_neg (by linarith), if_neg (by linarith)]
  exact ⟨_, rfl⟩

/-- C140: numbers up to 1000 and infinities meet the hypotheses on the arithmetic. -/
example : RoundsFx flSat ∧ Overflows flSat (fun x => x) ∧ Rounding (fun x => x) 0 ∧ (1 + (0 : ℝ)) ^ 5 < 2 ∧
    (∀ x, (∃ y, flSat x = .fin y) → ∃ y, flSat (-x) = .fin y) :=
  ⟨flSat_mono.toRoundsFx, sat_over, ⟨le_refl _, fun _ => rfl, fun _ => rfl, fun x => by simp, fun _ _ _ _ _ => rfl, fun _ _ _ _ _ => rfl⟩, by norm_num, sat_neg⟩

private def tree4 : RTree 4 := .node (.node (.leaf 0) (.leaf 1)) (.node (.leaf 2) (.leaf 3))
private def tree5 : RTree 5 := .node (.node (.node (.node (.leaf 0) (.leaf 1)) (.leaf 2)) (.leaf 3)) (.leaf 4)

/-- C140: the inverse of 1 + i + j + k is finite and not zero, ... -/
example : tree4.Valid ∧ tree5.Valid ∧ ∃ r, Ie.qinverse Cfg.sse false flSat true tree4 tree5 (finQ (⟨fun _ => 1⟩ : Quat ℝ .scalarFirst)) = some r ∧
    r.canonical 1 = .fin (-(1 / 4)) := by
  have hL : Ie.qlengthSquared Cfg.sse false flSat true tree4 tree5 (finQ (⟨fun _ => 1⟩ : Quat ℝ .scalarFirst)) = .fin 4 := by
    have : Ie.qlengthSquared Cfg.sse false flSat true tree4 tree5 (finQ (⟨fun _ => 1⟩ : Quat ℝ .scalarFirst)) =
      Fx.add flSat (Fx.add flSat (Fx.mul flSat (.fin 1) (.fin 1)) (Fx.mul flSat (.fin 1) (.fin 1)))
        (Fx.add flSat (Fx.mul flSat (.fin 1) (.fin 1)) (Fx.mul flSat (.fin 1) (.fin 1))) := rfl
    rw [this]
    norm_num [Fx.mul, Fx.add, flSat]
  refine ⟨List.Perm.refl _, List.Perm.refl _,
    ⟨fun t => Fx.div flSat ((Ie.qconj flSat (finQ (⟨fun _ => 1⟩ : Quat ℝ .scalarFirst))).elements t) (.fin 4)⟩, ?_, ?_⟩
  · unfold Ie.qinverse
    rw [hL]
    exact if_neg (by rw [show ((Fx.fin (4 : ℝ) == Fx.fin 0) = false) from decide_eq_false (by norm_num)]; simp)
  · change Fx.div flSat ((Ie.qconj flSat (finQ (⟨fun _ => 1⟩ : Quat ℝ .scalarFirst))).canonical 1) (.fin 4) = _
    unfold Ie.qconj
    rw [canonical_ofCanonical]
    change Fx.div flSat (Fx.mul flSat (.fin 1) (.fin (-1))) (.fin 4) = _
    norm_num [Fx.mul, Fx.div, flSat]

/-- C140: ... and 100 + i overflows when squared, although its elements and those of its inverse are of moderate size. -/
example : ∃ q : Quat ℝ .vectorFirst, (∀ t, flSat (q.canonical t) = .fin (q.canonical t)) ∧ (∃ t, flSat (q.canonical t * q.canonical t) = .inf false) ∧
    toH q ≠ 0 := by
  refine ⟨mk4 _ 100 1 0 0, fun t => ?_, ⟨0, ?_⟩, fun h => ?_⟩
  · rw [canonical_mk4]; fin_cases t <;> norm_num [flSat]
  · rw [canonical_mk4]; norm_num [flSat]
  · have := congrArg QuaternionAlgebra.re h
    rw [toH_mk4] at this
    norm_num at this

end Mathter.Props
