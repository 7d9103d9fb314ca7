import Verif.Model.RoundedMatrixNorm
import Verif.Lemmas.RangeNorm
import Verif.Lemmas.RoundedOne
import Verif.Props.RoundedComplex
import Verif.Props.Matrix

/-!
# Property C156: rounding errors of `Sum`, `Trace`, `NormSquared` and `Norm` of matrices

For every layout, configuration and reduction order; the bounds depend on the number of rows plus the number of columns only.
-/

namespace Mathter.Props
open Mathter

variable {c cR : Cfg} {r n : ℕ} {o : Order} {L : Layout} {pk : Bool} {fl : ℝ → ℝ} {u : ℝ}

/-- Terms with `k` errors each, added one after the other. -/
private theorem acc_near (h : Rounding fl u) {N k : ℕ} {g x M : Fin N → ℝ} (hg : ∀ s, Near u k (g s) (x s) (M s)) :
    Near u (k + N) (forUp N 0 (fun s acc => fl (acc + g s)) 0) (∑ s, x s) (∑ s, M s) := by
  have := forUp_inv (n := N) (lo := 0) (body := fun s acc => fl (acc + g s)) (s := (0 : ℝ)) (fun q acc => Near u (k + q) acc (psum x q) (psum M q)) (Nat.zero_le _)
    (by simp only [psum_zero]; exact ⟨by simp, by simp⟩) (by
      intro s acc _ ha
      simp only [psum_succ]
      exact (ha.add ((hg s).mono h (Nat.le_add_right _ _))).round h)
  rwa [psum_all, psum_all] at this

/-- The sum of the elements of a vector with `k` errors each. -/
private theorem sum_near (h : Rounding fl u) {d k : ℕ} (tb : RTree (batchSize d false)) (ts : RTree (d + 1)) (htb : tb.Valid) (hts : ts.Valid) (w : Vec c ℝ d pk)
    (hw : ∀ i, fl (w.get i) = w.get i) {x M : Fin d → ℝ} (hx : ∀ i, Near u k (w.get i) (x i) (M i)) : Near u (k + d) (Fl.sum fl tb ts w) (∑ i, x i) (∑ i, M i) := by
  have h1 := C76_sum h tb ts htb hts w hw
  refine ⟨?_, (Finset.abs_sum_le_sum_abs _ _).trans (Finset.sum_le_sum fun i _ => (hx i).bound)⟩
  have hM : 0 ≤ ∑ i, M i := Finset.sum_nonneg fun i _ => (hx i).nonneg
  have e1 : |∑ i, w.get i - ∑ i, x i| ≤ ((1 + u) ^ k - 1) * ∑ i, M i := by
    rw [← Finset.sum_sub_distrib, Finset.mul_sum]
    exact (Finset.abs_sum_le_sum_abs _ _).trans (Finset.sum_le_sum fun i _ => (hx i).err)
  have e2 : ∑ i, |w.get i| ≤ (1 + u) ^ k * ∑ i, M i := by
    rw [Finset.mul_sum]
    exact Finset.sum_le_sum fun i _ => (hx i).abs_le
  have e3 := abs_add_le (Fl.sum fl tb ts w - ∑ i, w.get i) (∑ i, w.get i - ∑ i, x i)
  rw [sub_add_sub_cancel] at e3
  have h2 : (0 : ℝ) ≤ (1 + u) ^ (d - 1) - 1 := by linarith [h.one_le (d - 1)]
  have e4 := mul_le_mul_of_nonneg_left e2 h2
  have e5 : (1 + u) ^ (d - 1) ≤ (1 + u) ^ d := pow_le_pow_right₀ (by linarith [h.u_nonneg]) (Nat.sub_le _ _)
  have e6 := mul_le_mul_of_nonneg_right e5 (mul_nonneg (by linarith [h.one_le k] : 0 ≤ (1 + u) ^ k) hM)
  rw [pow_add]
  linarith

private theorem matSum_near (h : Rounding fl u) {k : ℕ} (tb : RTree (batchSize (stripeDim L r n) false)) (ts : RTree (stripeDim L r n + 1)) (htb : tb.Valid)
    (hts : ts.Valid) (w : Mat c ℝ r n o L pk) (hw : ∀ i j, fl (w.get i j) = w.get i j) {x M : Fin r → Fin n → ℝ}
    (hx : ∀ i j, Near u k (w.get i j) (x i j) (M i j)) : Near u (k + (r + n)) (Fl.matSum fl tb ts w) (∑ i, ∑ j, x i j) (∑ i, ∑ j, M i j) := by
  cases L
  · have := acc_near h fun s : Fin r => sum_near h tb ts htb hts (w.stripes s) (fun t => hw s t) (x := x s) (M := M s) fun t => hx s t
    rw [add_comm r n, ← add_assoc]
    exact this
  · have := acc_near h fun s : Fin n => sum_near h tb ts htb hts (w.stripes s) (fun t => hw t s) (x := fun t => x t s) (M := fun t => M t s) fun t => hx t s
    rw [← add_assoc, Finset.sum_comm, Finset.sum_comm (f := M)]
    exact this

/-- C156: `Sum` of a matrix of floats. -/
theorem C156_sum (h : Rounding fl u) (tb : RTree (batchSize (stripeDim L r n) false)) (ts : RTree (stripeDim L r n + 1)) (htb : tb.Valid) (hts : ts.Valid)
    (m : Mat c ℝ r n o L pk) (hm : ∀ i j, fl (m.get i j) = m.get i j) :
    |Fl.matSum fl tb ts m - ∑ i, ∑ j, m.get i j| ≤ ((1 + u) ^ (r + n) - 1) * ∑ i, ∑ j, |m.get i j| := by
  have := (matSum_near h tb ts htb hts m hm fun i j => Near.exact (m.get i j)).err
  rwa [zero_add] at this

private theorem accC_part (f : ℂ → ℝ) (h0 : f 0 = 0) (hf : ∀ z w, f (Fl.flC fl (z + w)) = fl (f z + f w)) {N : ℕ} (g : Fin N → ℂ) :
    f (forUp N 0 (fun s acc => Fl.flC fl (acc + g s)) 0) = forUp N 0 (fun s acc => fl (acc + f (g s))) 0 :=
  forUp_rel (fun z x => f z = x) h0 fun s z x e => by rw [hf, e]

/-- C156: `Sum` of a matrix of complex floats, part by part. -/
theorem C156_sum_complex (h : Rounding fl u) (tb : RTree (batchSize (stripeDim L r n) false)) (ts : RTree (stripeDim L r n + 1)) (htb : tb.Valid) (hts : ts.Valid)
    (m : Mat c ℂ r n o L pk) (hm : ∀ i j, fl (m.get i j).re = (m.get i j).re ∧ fl (m.get i j).im = (m.get i j).im) :
    |(Fl.matSumC fl tb ts m - ∑ i, ∑ j, m.get i j).re| ≤ ((1 + u) ^ (r + n) - 1) * ∑ i, ∑ j, |(m.get i j).re| ∧
    |(Fl.matSumC fl tb ts m - ∑ i, ∑ j, m.get i j).im| ≤ ((1 + u) ^ (r + n) - 1) * ∑ i, ∑ j, |(m.get i j).im| := by
  let w (f : ℂ → ℝ) : Mat c ℝ r n o L pk := ⟨fun s => Vec.doUnary true f (m.stripes s)⟩
  have gw : ∀ f, ∀ i j, (w f).get i j = f (m.get i j) := fun f i j => Mat.get_of_stripes f m (w f) (fun s t => Vec.get_doUnary ..) i j
  have e1 : (Fl.matSumC fl tb ts m).re = Fl.matSum fl tb ts (w Complex.re) := by
    unfold Fl.matSumC Fl.matSum
    rw [accC_part Complex.re rfl fun _ _ => rfl]
    congr 1
    funext s acc
    rw [complex_sumC_re]
  have e2 : (Fl.matSumC fl tb ts m).im = Fl.matSum fl tb ts (w Complex.im) := by
    unfold Fl.matSumC Fl.matSum
    rw [accC_part Complex.im rfl fun _ _ => rfl]
    congr 1
    funext s acc
    rw [complex_sumC_im]
  have a1 := C156_sum h tb ts htb hts (w Complex.re) fun i j => by rw [gw]; exact (hm i j).1
  have a2 := C156_sum h tb ts htb hts (w Complex.im) fun i j => by rw [gw]; exact (hm i j).2
  simp only [gw] at a1 a2
  rw [Complex.sub_re, Complex.sub_im, e1, e2]
  simp only [Complex.re_sum, Complex.im_sum]
  exact ⟨a1, a2⟩

/-- C156: `Trace` of a matrix of floats. -/
theorem C156_trace (h : Rounding fl u) (tb : RTree (batchSize n false)) (ts : RTree (n + 1)) (htb : tb.Valid) (hts : ts.Valid) (v0 : Vec c ℝ n pk)
    (m : Mat c ℝ n n o L pk) (hm : ∀ i, fl (m.get i i) = m.get i i) :
    |Fl.trace fl tb ts v0 m - ∑ i, m.get i i| ≤ ((1 + u) ^ (n - 1) - 1) * ∑ i, |m.get i i| := by
  have := C76_sum h tb ts htb hts (forUp n 0 (fun i v => v.set i (m.get i i)) v0) fun i => by
    rw [Vec.get_setLoop fun i => m.get i i]; exact hm i
  simp only [Vec.get_setLoop fun i => m.get i i] at this
  exact this

/-- C156: `Trace` of a matrix of complex floats, part by part. -/
theorem C156_trace_complex (h : Rounding fl u) (tb : RTree (batchSize n false)) (ts : RTree (n + 1)) (htb : tb.Valid) (hts : ts.Valid) (v0 : Vec c ℂ n pk)
    (m : Mat c ℂ n n o L pk) (hm : ∀ i, fl (m.get i i).re = (m.get i i).re ∧ fl (m.get i i).im = (m.get i i).im) :
    |(Fl.traceC fl tb ts v0 m - ∑ i, m.get i i).re| ≤ ((1 + u) ^ (n - 1) - 1) * ∑ i, |(m.get i i).re| ∧
    |(Fl.traceC fl tb ts v0 m - ∑ i, m.get i i).im| ≤ ((1 + u) ^ (n - 1) - 1) * ∑ i, |(m.get i i).im| := by
  have := C112_sum h tb ts htb hts (forUp n 0 (fun i v => v.set i (m.get i i)) v0) fun i => by
    rw [Vec.get_setLoop fun i => m.get i i]; exact hm i
  simp only [Vec.get_setLoop fun i => m.get i i] at this
  exact this

private theorem get_real {A : Type} [RCLike A] (conv : Bool) (m0 : Mat cR ℝ r n o L pk) (m : Mat c A r n o L pk) (i : Fin r) (j : Fin n) :
    (Mat.real conv m0 m : Mat cR ℝ r n o L pk).get i j = RCLike.re (m.get i j) := by
  apply Mat.get_of_stripes (fun z : A => RCLike.re z) m
  intro s t
  unfold Mat.real Mat.mapStripesTo
  rw [Mat.stripeLoopMat (fun s => Vec.real conv (m.stripes s))]
  simp [Vec.real]

/-- The elements that `NormSquared` of a real matrix adds up. -/
theorem normSquared_element (fl : ℝ → ℝ) (conv : Bool) (jr : Vec c ℝ n pk) (jc : Vec c ℝ r pk) (m0 : Mat c ℝ r n o L pk) (m1 m2 : Mat c ℝ r n o L (pk && pk))
    (m : Mat c ℝ r n o L pk) (i : Fin r) (j : Fin n) :
    (Mat.real conv m2 (Mat.elementwise (fun v w => Vec.doBinary conv (fun x y => fl (x * y)) v w) jr jc m1 m (Mat.conj conv m0 m)) :
      Mat c ℝ r n o L (pk && pk)).get i j = fl (m.get i j * m.get i j) := by
  rw [get_real, Mat.elementwise_get _ (fun x y => fl (x * y)) (fun v w i => by rw [Vec.get_doBinary])]
  have : (Mat.conj conv m0 m).get i j = star (m.get i j) := congrFun (congrFun (C27_conj conv m0 m) i) j
  rw [this]
  simp

/-- C156: `NormSquared` of a real matrix has a small relative error. -/
theorem C156_normSquared (h : Rounding fl u) (conv : Bool) (tb : RTree (batchSize (stripeDim L r n) false)) (ts : RTree (stripeDim L r n + 1)) (htb : tb.Valid)
    (hts : ts.Valid) (jr : Vec c ℝ n pk) (jc : Vec c ℝ r pk) (m0 : Mat c ℝ r n o L pk) (m1 m2 : Mat c ℝ r n o L (pk && pk)) (m : Mat c ℝ r n o L pk) :
    |Fl.matNormSquared fl conv tb ts jr jc m0 m1 m2 m - ∑ i, ∑ j, m.get i j ^ 2| ≤ ((1 + u) ^ (r + n + 1) - 1) * ∑ i, ∑ j, m.get i j ^ 2 := by
  have g := normSquared_element fl conv jr jc m0 m1 m2 m
  have := (matSum_near h tb ts htb hts _ (fun i j => by rw [g]; exact h.idem _) (x := fun i j => m.get i j ^ 2) (M := fun i j => m.get i j ^ 2) (k := 1) fun i j => by
    rw [g]
    have := (Near.exact (u := u) (m.get i j)).mul h (Near.exact (m.get i j))
    rw [abs_mul_abs_self] at this
    simp only [pow_two]
    exact this).err
  rw [show r + n + 1 = 1 + (r + n) by ring]
  exact this

/-- C156: `NormSquared` of a complex matrix has a small relative error. -/
theorem C156_normSquared_complex (h : Rounding fl u) {ps pd : ℝ → ℝ → ℝ → ℝ → ℝ} (hpd : Fl.IsProdDiff fl pd) (conv convC : Bool)
    (tb : RTree (batchSize (stripeDim L r n) false)) (ts : RTree (stripeDim L r n + 1)) (htb : tb.Valid) (hts : ts.Valid) (jr : Vec c ℂ n pk) (jc : Vec c ℂ r pk)
    (m0 : Mat c ℂ r n o L pk) (m1 : Mat c ℂ r n o L (pk && pk)) (m2 : Mat cR ℝ r n o L (pk && pk)) (m : Mat c ℂ r n o L pk) :
    |Fl.matNormSquaredC fl ps pd conv convC tb ts jr jc m0 m1 m2 m - ∑ i, ∑ j, ‖m.get i j‖ ^ 2| ≤ ((1 + u) ^ (r + n + 2) - 1) * ∑ i, ∑ j, ‖m.get i j‖ ^ 2 := by
  have g : ∀ i j, (Mat.real convC m2 (Mat.elementwise (fun v w => Vec.doBinary conv (Fl.prodC ps pd) v w) jr jc m1 m (Mat.conj conv m0 m)) :
      Mat cR ℝ r n o L (pk && pk)).get i j = pd (m.get i j).re (m.get i j).re (m.get i j).im (-(m.get i j).im) := fun i j => by
    rw [get_real, Mat.elementwise_get _ (Fl.prodC ps pd) (fun v w i => by rw [Vec.get_doBinary])]
    have : (Mat.conj conv m0 m).get i j = star (m.get i j) := congrFun (congrFun (C27_conj conv m0 m) i) j
    rw [this]
    simp [Fl.prodC]
  have := (matSum_near h tb ts htb hts _ (fun i j => by
      rw [g]
      rcases hpd (m.get i j).re (m.get i j).re (m.get i j).im (-(m.get i j).im) with e | e | e <;> rw [e, h.idem])
    (x := fun i j => ‖m.get i j‖ ^ 2) (M := fun i j => ‖m.get i j‖ ^ 2) (k := 2) fun i j => by
    rw [g]
    have := Near.pd h hpd (Near.exact (u := u) (m.get i j).re) (Near.exact (m.get i j).re) (Near.exact (m.get i j).im) (Near.exact (-(m.get i j).im))
    rw [abs_neg, abs_mul_abs_self, abs_mul_abs_self] at this
    rw [← Complex.normSq_eq_norm_sq, Complex.normSq_apply]
    rw [mul_neg, sub_neg_eq_add] at this
    exact this).err
  rw [show r + n + 2 = 2 + (r + n) by ring]
  exact this

/-- C156: `Norm` of a real matrix has a small relative error. -/
theorem C156_norm (h : Rounding fl u) (conv : Bool) (tb : RTree (batchSize (stripeDim L r n) false)) (ts : RTree (stripeDim L r n + 1)) (htb : tb.Valid)
    (hts : ts.Valid) (jr : Vec c ℝ n pk) (jc : Vec c ℝ r pk) (m0 : Mat c ℝ r n o L pk) (m1 m2 : Mat c ℝ r n o L (pk && pk)) (m : Mat c ℝ r n o L pk) :
    |Fl.matNorm fl conv tb ts jr jc m0 m1 m2 m - Real.sqrt (∑ i, ∑ j, m.get i j ^ 2)| ≤ ((1 + u) ^ (r + n + 2) - 1) * Real.sqrt (∑ i, ∑ j, m.get i j ^ 2) := by
  rw [pow_succ]
  exact complex_sqrt_fl h (Finset.sum_nonneg fun i _ => Finset.sum_nonneg fun j _ => sq_nonneg _) (h.one_le _)
    (C156_normSquared h conv tb ts htb hts jr jc m0 m1 m2 m)

/-- C156: `Norm` of a complex matrix has a small relative error. -/
theorem C156_norm_complex (h : Rounding fl u) {ps pd : ℝ → ℝ → ℝ → ℝ → ℝ} (hpd : Fl.IsProdDiff fl pd) (conv convC : Bool)
    (tb : RTree (batchSize (stripeDim L r n) false)) (ts : RTree (stripeDim L r n + 1)) (htb : tb.Valid) (hts : ts.Valid) (jr : Vec c ℂ n pk) (jc : Vec c ℂ r pk)
    (m0 : Mat c ℂ r n o L pk) (m1 : Mat c ℂ r n o L (pk && pk)) (m2 : Mat cR ℝ r n o L (pk && pk)) (m : Mat c ℂ r n o L pk) :
    |Fl.matNormC fl ps pd conv convC tb ts jr jc m0 m1 m2 m - Real.sqrt (∑ i, ∑ j, ‖m.get i j‖ ^ 2)| ≤
      ((1 + u) ^ (r + n + 3) - 1) * Real.sqrt (∑ i, ∑ j, ‖m.get i j‖ ^ 2) := by
  rw [pow_succ]
  exact complex_sqrt_fl h (Finset.sum_nonneg fun i _ => Finset.sum_nonneg fun j _ => sq_nonneg _) (h.one_le _)
    (C156_normSquared_complex h hpd conv convC tb ts htb hts jr jc m0 m1 m2 m)

/-- The hypotheses hold in single precision: a 2 by 3 matrix of floats, in either layout, its norm accurate to seven roundings. -/
example (c : Cfg) (L : Layout) (o : Order) (pk conv : Bool) (tb : RTree (batchSize (stripeDim L 2 3) false)) (ts : RTree (stripeDim L 2 3 + 1)) (htb : tb.Valid)
    (hts : ts.Valid) (jr : Vec c ℝ 3 pk) (jc : Vec c ℝ 2 pk) (m0 : Mat c ℝ 2 3 o L pk) (m1 m2 : Mat c ℝ 2 3 o L (pk && pk)) (m : Mat c ℝ 2 3 o L pk)
    (hm : ∀ i j, m.get i j = i.val + 2 * j.val) :
    |Fl.matSum (flAway 24) tb ts m - 15| ≤ ((1 + (2 : ℝ) ^ (-((24 : ℕ) : ℤ))) ^ 5 - 1) * 15 ∧
    |Fl.matNorm (flAway 24) conv tb ts jr jc m0 m1 m2 m - Real.sqrt 55| ≤ ((1 + (2 : ℝ) ^ (-((24 : ℕ) : ℤ))) ^ 7 - 1) * Real.sqrt 55 := by
  have hR := (flAway_roundsToNearest (p := 24) (by norm_num)).rounding (by norm_num)
  have hfl : ∀ k : ℕ, k < 2 ^ 24 → flAway 24 k = k := fun k hk => (flAway_roundsToNearest (p := 24) (by norm_num)).fixed ⟨k, 0, by simp, by rw [Nat.abs_cast]; exact_mod_cast hk⟩
  constructor
  · have := C156_sum hR tb ts htb hts m fun i j => by
      rw [hm]
      have := hfl (i.val + 2 * j.val) (by have := i.isLt; have := j.isLt; omega)
      push_cast at this
      exact this
    simp only [hm, Fin.sum_univ_succ, Fin.sum_univ_zero] at this
    norm_num at this ⊢
    exact this
  · have := C156_norm hR conv tb ts htb hts jr jc m0 m1 m2 m
    simp only [hm, Fin.sum_univ_succ, Fin.sum_univ_zero] at this
    norm_num at this ⊢
    exact this

/-- Exact arithmetic, complex elements: the norm of a matrix of `3 + 4i` is five times that of a matrix of ones. -/
example (c cR : Cfg) (L : Layout) (o : Order) (pk conv convC : Bool) (tb : RTree (batchSize (stripeDim L 2 2) false)) (ts : RTree (stripeDim L 2 2 + 1)) (htb : tb.Valid)
    (hts : ts.Valid) (jr : Vec c ℂ 2 pk) (jc : Vec c ℂ 2 pk) (m0 : Mat c ℂ 2 2 o L pk) (m1 : Mat c ℂ 2 2 o L (pk && pk)) (m2 : Mat cR ℝ 2 2 o L (pk && pk))
    (m : Mat c ℂ 2 2 o L pk) (hm : ∀ i j, m.get i j = ⟨3, 4⟩) :
    Fl.matNormC id (fun a b c d => a * b + c * d) (fun a b c d => a * b - c * d) conv convC tb ts jr jc m0 m1 m2 m = 10 := by
  have h : Rounding (id : ℝ → ℝ) 0 := ⟨le_rfl, fun _ => rfl, fun _ => rfl, fun x => by simp, fun _ _ _ _ _ => rfl, fun _ _ _ _ _ => rfl⟩
  have := C156_norm_complex h (ps := fun a b c d => a * b + c * d) (pd := fun a b c d => a * b - c * d) (fun a b c d => Or.inl rfl) conv convC tb ts htb hts jr jc m0 m1 m2 m
  rw [add_zero, one_pow, sub_self, zero_mul, abs_nonpos_iff, sub_eq_zero] at this
  rw [this]
  simp only [hm, ← Complex.normSq_eq_norm_sq, Complex.normSq_mk, Finset.sum_const, Finset.card_univ, Fintype.card_fin]
  rw [Real.sqrt_eq_iff_mul_self_eq] <;> norm_num

end Mathter.Props
