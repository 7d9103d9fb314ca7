import Verif.Model.RoundedComplex
import Verif.Lemmas.RoundedNear
import Verif.Lemmas.RoundedOne
import Verif.Props.RoundedReduce
import Verif.Props.Compensated

/-!
# C112 and C113: rounding errors of sums, inner products and lengths of complex vectors
-/

namespace Mathter.Props
open Mathter Red
variable {c : Cfg} {dim n : ℕ} {p p1 p2 : Bool} {fl : ℝ → ℝ} {u : ℝ}

/-! ## C112 -/

private theorem eval_part (f : ℂ → ℝ) (hf : ∀ z w, f (Fl.flC fl (z + w)) = fl (f z + f w)) {m : ℕ} (b : Fin m → ℂ) (t : RTree m) :
    f (t.eval (fun x y => Fl.flC fl (x + y)) b) = t.eval (fun x y => fl (x + y)) fun i => f (b i) := by
  induction t with
  | leaf i => rfl
  | node l r hl hr => rw [RTree.eval, RTree.eval, hf, hl, hr]

private theorem sumC_part (f : ℂ → ℝ) (h0 : f 0 = 0) (hf : ∀ z w, f (Fl.flC fl (z + w)) = fl (f z + f w)) (tb : RTree (batchSize dim false)) (ts : RTree (dim + 1))
    (v : Vec c ℂ dim p) : f (Fl.sumC fl tb ts v) = Fl.sum fl tb ts (Vec.doUnary true f v : Vec c ℝ dim p) := by
  unfold Fl.sumC Fl.sum
  split
  · rename_i hb
    rw [eval_part f hf]
    congr 1
    funext i
    unfold Vec.fillMasked
    have e : i.val < dim → f (v.load hb i) = (Vec.doUnary true f v : Vec c ℝ dim p).load hb i := fun hi => by
      rw [Vec.load_of_lt _ _ _ hi, Vec.load_of_lt _ _ _ hi, Vec.get_doUnary]
    split
    · exact e (by have := i.isLt; omega)
    · dsimp only
      split
      · exact e (by assumption)
      · exact h0
  · rw [eval_part f hf]
    congr 1
    funext i
    split
    · rw [Vec.get_doUnary]
    · exact h0

private theorem re_flC (z w : ℂ) : (Fl.flC fl (z + w)).re = fl (z.re + w.re) := rfl
private theorem im_flC (z w : ℂ) : (Fl.flC fl (z + w)).im = fl (z.im + w.im) := rfl

theorem complex_sumC_re (tb : RTree (batchSize dim false)) (ts : RTree (dim + 1)) (v : Vec c ℂ dim p) :
    (Fl.sumC fl tb ts v).re = Fl.sum fl tb ts (Vec.doUnary true Complex.re v : Vec c ℝ dim p) := sumC_part Complex.re rfl re_flC tb ts v

theorem complex_sumC_im (tb : RTree (batchSize dim false)) (ts : RTree (dim + 1)) (v : Vec c ℂ dim p) :
    (Fl.sumC fl tb ts v).im = Fl.sum fl tb ts (Vec.doUnary true Complex.im v : Vec c ℝ dim p) := sumC_part Complex.im rfl im_flC tb ts v

/-- C112: `Sum` of complex floats, part by part. -/
theorem C112_sum (h : Rounding fl u) (tb : RTree (batchSize dim false)) (ts : RTree (dim + 1)) (htb : tb.Valid) (hts : ts.Valid)
    (v : Vec c ℂ dim p) (hv : ∀ i, fl (v.get i).re = (v.get i).re ∧ fl (v.get i).im = (v.get i).im) :
    |(Fl.sumC fl tb ts v - ∑ i, v.get i).re| ≤ ((1 + u) ^ (dim - 1) - 1) * ∑ i, |(v.get i).re| ∧
    |(Fl.sumC fl tb ts v - ∑ i, v.get i).im| ≤ ((1 + u) ^ (dim - 1) - 1) * ∑ i, |(v.get i).im| := by
  rw [Complex.sub_re, Complex.sub_im, Complex.re_sum, Complex.im_sum, sumC_part Complex.re rfl re_flC, sumC_part Complex.im rfl im_flC]
  have h1 := C76_sum h tb ts htb hts (Vec.doUnary true Complex.re v : Vec c ℝ dim p) (fun i => by rw [Vec.get_doUnary]; exact (hv i).1)
  have h2 := C76_sum h tb ts htb hts (Vec.doUnary true Complex.im v : Vec c ℝ dim p) (fun i => by rw [Vec.get_doUnary]; exact (hv i).2)
  simp only [Vec.get_doUnary] at h1 h2
  exact ⟨h1, h2⟩

/-- Sum of terms each of which has been computed with two rounding errors. -/
theorem complex_sum_terms (h : Rounding fl u) (tb : RTree (batchSize dim false)) (ts : RTree (dim + 1)) (htb : tb.Valid) (hts : ts.Valid)
    (w : Vec c ℝ dim p) {x M : Fin dim → ℝ} (hw : ∀ i, Near u 2 (w.get i) (x i) (M i)) (hfl : ∀ i, fl (w.get i) = w.get i) :
    |Fl.sum fl tb ts w - ∑ i, x i| ≤ ((1 + u) ^ (dim + 1) - 1) * ∑ i, M i := by
  have hu := h.u_nonneg
  have h1 := C76_sum h tb ts htb hts w hfl
  have hM : 0 ≤ ∑ i, M i := Finset.sum_nonneg fun i _ => (hw i).nonneg
  have e1 : |∑ i, w.get i - ∑ i, x i| ≤ ((1 + u) ^ 2 - 1) * ∑ i, M i := by
    rw [← Finset.sum_sub_distrib, Finset.mul_sum]
    exact (Finset.abs_sum_le_sum_abs _ _).trans (Finset.sum_le_sum fun i _ => (hw i).err)
  have e2 : ∑ i, |w.get i| ≤ (1 + u) ^ 2 * ∑ i, M i := by
    rw [Finset.mul_sum]
    exact Finset.sum_le_sum fun i _ => (hw i).abs_le
  have e3 := abs_add_le (Fl.sum fl tb ts w - ∑ i, w.get i) (∑ i, w.get i - ∑ i, x i)
  rw [sub_add_sub_cancel] at e3
  rcases Nat.eq_zero_or_pos dim with h0 | h0
  · subst h0
    simp only [Finset.univ_eq_empty, Finset.sum_empty, mul_zero] at *
    linarith
  have h2 : (0 : ℝ) ≤ (1 + u) ^ (dim - 1) - 1 := by linarith [h.one_le (dim - 1)]
  have e4 := mul_le_mul_of_nonneg_left e2 h2
  have e5 : (1 + u) ^ (dim + 1) = (1 + u) ^ (dim - 1) * (1 + u) ^ 2 := by rw [← pow_add]; congr 1; omega
  rw [e5]
  nlinarith

theorem complex_cauchy (a b : ℂ) : |a.re| * |b.re| + |a.im| * |b.im| ≤ ‖a‖ * ‖b‖ ∧ |a.re| * |b.im| + |a.im| * |b.re| ≤ ‖a‖ * ‖b‖ := by
  have key : ∀ x y z w : ℝ, x * z + y * w ≤ Real.sqrt (x ^ 2 + y ^ 2) * Real.sqrt (z ^ 2 + w ^ 2) := by
    intro x y z w
    rw [← Real.sqrt_mul (by positivity)]
    apply Real.le_sqrt_of_sq_le
    nlinarith [sq_nonneg (x * w - y * z)]
  have n : ∀ a : ℂ, ‖a‖ = Real.sqrt (|a.re| ^ 2 + |a.im| ^ 2) := by
    intro a
    rw [sq_abs, sq_abs, Complex.norm_eq_sqrt_sq_add_sq]
  rw [n, n]
  refine ⟨key _ _ _ _, ?_⟩
  have := key |a.re| |a.im| |b.im| |b.re|
  rwa [add_comm (|b.im| ^ 2)] at this

theorem complex_near_ps (h : Rounding fl u) {ps : ℝ → ℝ → ℝ → ℝ → ℝ} (hps : Fl.IsProdSum fl ps) (a b c d : ℝ) :
    Near u 2 (ps a b c d) (a * b + c * d) (|a| * |b| + |c| * |d|) := by
  have p1 := (Near.exact (u := u) a).prod h (Near.exact b)
  have p2 := (Near.exact (u := u) c).prod h (Near.exact d)
  rcases hps a b c d with e | e | e <;> rw [e]
  · exact ((p1.round h).add (p2.round h)).round h
  · exact ((p1.mono h (Nat.le_succ _)).add (p2.round h)).round h
  · exact ((p1.round h).add (p2.mono h (Nat.le_succ _))).round h

/-- C112: the inner product of complex vectors, relative to the products of the moduli. -/
theorem C112_dot (h : Rounding fl u) {ps pd : ℝ → ℝ → ℝ → ℝ → ℝ} (hps : Fl.IsProdSum fl ps) (hpd : Fl.IsProdDiff fl pd) (conv : Bool)
    (tb : RTree (batchSize dim false)) (ts : RTree (dim + 1)) (htb : tb.Valid) (hts : ts.Valid) (a : Vec c ℂ dim p1) (b : Vec c ℂ dim p2) :
    |(Fl.dotC fl ps pd conv tb ts a b - ∑ i, a.get i * star (b.get i)).re| ≤ ((1 + u) ^ (dim + 1) - 1) * ∑ i, ‖a.get i‖ * ‖b.get i‖ ∧
    |(Fl.dotC fl ps pd conv tb ts a b - ∑ i, a.get i * star (b.get i)).im| ≤ ((1 + u) ^ (dim + 1) - 1) * ∑ i, ‖a.get i‖ * ‖b.get i‖ := by
  have hK : (0 : ℝ) ≤ (1 + u) ^ (dim + 1) - 1 := by linarith [h.one_le (dim + 1)]
  unfold Fl.dotC
  rw [Complex.sub_re, Complex.sub_im, Complex.re_sum, Complex.im_sum, sumC_part Complex.re rfl re_flC, sumC_part Complex.im rfl im_flC]
  constructor
  · refine (complex_sum_terms h tb ts htb hts _ (x := fun i => (a.get i * star (b.get i)).re)
      (M := fun i => |(a.get i).re| * |(b.get i).re| + |(a.get i).im| * |(b.get i).im|) (fun i => ?_) (fun i => ?_)).trans
      (mul_le_mul_of_nonneg_left (Finset.sum_le_sum fun i _ => (complex_cauchy _ _).1) hK)
    · simp only [Vec.get_doUnary, Vec.get_doBinary, Fl.conjC, Fl.prodC]
      have := Near.pd h hpd (Near.exact (u := u) (a.get i).re) (Near.exact (b.get i).re) (Near.exact (a.get i).im) (Near.exact (-(b.get i).im))
      rw [abs_neg] at this
      exact this
    · simp only [Vec.get_doUnary, Vec.get_doBinary, Fl.conjC, Fl.prodC]
      rcases hpd (a.get i).re (b.get i).re (a.get i).im (-(b.get i).im) with e | e | e <;> rw [e, h.idem]
  · refine (complex_sum_terms h tb ts htb hts _ (x := fun i => (a.get i * star (b.get i)).im)
      (M := fun i => |(a.get i).re| * |(b.get i).im| + |(a.get i).im| * |(b.get i).re|) (fun i => ?_) (fun i => ?_)).trans
      (mul_le_mul_of_nonneg_left (Finset.sum_le_sum fun i _ => (complex_cauchy _ _).2) hK)
    · simp only [Vec.get_doUnary, Vec.get_doBinary, Fl.conjC, Fl.prodC]
      have := complex_near_ps h hps (a.get i).re (-(b.get i).im) (a.get i).im (b.get i).re
      rw [abs_neg] at this
      exact this
    · simp only [Vec.get_doUnary, Vec.get_doBinary, Fl.conjC, Fl.prodC]
      rcases hps (a.get i).re (-(b.get i).im) (a.get i).im (b.get i).re with e | e | e <;> rw [e, h.idem]

/-- C112: `LengthSquared` of complex vectors has a small relative error. -/
theorem C112_lengthSquared (h : Rounding fl u) {ps pd : ℝ → ℝ → ℝ → ℝ → ℝ} (hps : Fl.IsProdSum fl ps) (hpd : Fl.IsProdDiff fl pd) (conv : Bool)
    (tb : RTree (batchSize dim false)) (ts : RTree (dim + 1)) (htb : tb.Valid) (hts : ts.Valid) (v : Vec c ℂ dim p) :
    |Fl.lengthSquaredC fl ps pd conv tb ts v - ∑ i, ‖v.get i‖ ^ 2| ≤ ((1 + u) ^ (dim + 1) - 1) * ∑ i, ‖v.get i‖ ^ 2 := by
  have := (C112_dot h hps hpd conv tb ts htb hts v v).1
  simp only [← pow_two] at this
  rw [Complex.sub_re, Complex.re_sum] at this
  have e : ∀ z : ℂ, (z * star z).re = ‖z‖ ^ 2 := fun z => by
    rw [← Complex.normSq_eq_norm_sq, Complex.normSq_apply]; simp
  simp only [e] at this
  exact this

/-- Square root of a number with a small relative error, rounded. -/
theorem complex_sqrt_fl (h : Rounding fl u) {q S g : ℝ} (hS : 0 ≤ S) (hg1 : 1 ≤ g) (hq : |q - S| ≤ (g - 1) * S) :
    |fl (Real.sqrt q) - Real.sqrt S| ≤ (g * (1 + u) - 1) * Real.sqrt S := by
  have hu := h.u_nonneg
  have he := h.err (Real.sqrt q)
  generalize fl (Real.sqrt q) = L at *
  have hs0 := Real.sqrt_nonneg S
  have up : Real.sqrt q ≤ g * Real.sqrt S := by
    rw [show g * Real.sqrt S = Real.sqrt (g ^ 2 * S) by rw [Real.sqrt_mul (sq_nonneg _), Real.sqrt_sq (by linarith)]]
    apply Real.sqrt_le_sqrt
    have := (abs_le.1 hq).2
    nlinarith [mul_nonneg hS (by nlinarith : (0 : ℝ) ≤ g ^ 2 - g)]
  have lo : (2 - g) * Real.sqrt S ≤ Real.sqrt q := by
    rcases le_or_gt g 2 with h2 | h2
    · rw [show (2 - g) * Real.sqrt S = Real.sqrt ((2 - g) ^ 2 * S) by rw [Real.sqrt_mul (sq_nonneg _), Real.sqrt_sq (by linarith)]]
      apply Real.sqrt_le_sqrt
      have := (abs_le.1 hq).1
      nlinarith [mul_nonneg hS (by nlinarith : (0 : ℝ) ≤ (2 - g) - (2 - g) ^ 2)]
    · have := Real.sqrt_nonneg q
      nlinarith
  have hq0 := Real.sqrt_nonneg q
  rw [abs_of_nonneg hq0] at he
  have e1 := (abs_le.1 he).1
  have e2 := (abs_le.1 he).2
  have e3 : u * Real.sqrt q ≤ u * (g * Real.sqrt S) := mul_le_mul_of_nonneg_left up hu
  rw [abs_le]
  constructor <;> nlinarith

/-- C112: `Length` of complex vectors has a small relative error. -/
theorem C112_length (h : Rounding fl u) {ps pd : ℝ → ℝ → ℝ → ℝ → ℝ} (hps : Fl.IsProdSum fl ps) (hpd : Fl.IsProdDiff fl pd) (conv : Bool)
    (tb : RTree (batchSize dim false)) (ts : RTree (dim + 1)) (htb : tb.Valid) (hts : ts.Valid) (v : Vec c ℂ dim p) :
    |Fl.lengthC fl ps pd conv tb ts v - Real.sqrt (∑ i, ‖v.get i‖ ^ 2)| ≤ ((1 + u) ^ (dim + 2) - 1) * Real.sqrt (∑ i, ‖v.get i‖ ^ 2) := by
  rw [pow_succ]
  exact complex_sqrt_fl h (Finset.sum_nonneg fun i _ => sq_nonneg _) (h.one_le _) (C112_lengthSquared h hps hpd conv tb ts htb hts v)

/-- C112: `Distance` of complex vectors has a small relative error, however close the points are. -/
theorem C112_distance (h : Rounding fl u) {ps pd : ℝ → ℝ → ℝ → ℝ → ℝ} (hps : Fl.IsProdSum fl ps) (hpd : Fl.IsProdDiff fl pd) (conv : Bool)
    (tb : RTree (batchSize dim false)) (ts : RTree (dim + 1)) (htb : tb.Valid) (hts : ts.Valid) (a : Vec c ℂ dim p1) (b : Vec c ℂ dim p2) :
    |Fl.distanceC fl ps pd conv tb ts a b - Real.sqrt (∑ i, ‖a.get i - b.get i‖ ^ 2)| ≤
      ((1 + u) ^ (dim + 3) - 1) * Real.sqrt (∑ i, ‖a.get i - b.get i‖ ^ 2) := by
  have hu := h.u_nonneg
  have this := C112_length h hps hpd conv tb ts htb hts (Vec.doBinary conv (fun x y => Fl.flC fl (x - y)) a b : Vec c ℂ dim (p1 && p2))
  change |Fl.distanceC fl ps pd conv tb ts a b - _| ≤ _ at this
  simp only [Vec.get_doBinary] at this
  -- the rounded differences
  have d : ∀ z : ℂ, ‖Fl.flC fl z - z‖ ≤ u * ‖z‖ := by
    intro z
    rw [Complex.norm_eq_sqrt_sq_add_sq, Complex.norm_eq_sqrt_sq_add_sq z]
    rw [show u * Real.sqrt (z.re ^ 2 + z.im ^ 2) = Real.sqrt (u ^ 2 * (z.re ^ 2 + z.im ^ 2)) by rw [Real.sqrt_mul (sq_nonneg _), Real.sqrt_sq hu]]
    apply Real.sqrt_le_sqrt
    have e1 := pow_le_pow_left₀ (abs_nonneg _) (h.err z.re) 2
    have e2 := pow_le_pow_left₀ (abs_nonneg _) (h.err z.im) 2
    rw [mul_pow, sq_abs, sq_abs] at e1 e2
    rw [mul_add]
    exact add_le_add e1 e2
  have key : ∀ i, ‖Fl.flC fl (a.get i - b.get i)‖ ≤ (1 + u) * ‖a.get i - b.get i‖ ∧ (1 - u) * ‖a.get i - b.get i‖ ≤ ‖Fl.flC fl (a.get i - b.get i)‖ := by
    intro i
    have := d (a.get i - b.get i)
    have h1 := norm_sub_norm_le (Fl.flC fl (a.get i - b.get i)) (a.get i - b.get i)
    have h2 := norm_sub_norm_le (a.get i - b.get i) (Fl.flC fl (a.get i - b.get i))
    rw [norm_sub_rev (a.get i - b.get i) (Fl.flC fl (a.get i - b.get i))] at h2
    constructor <;> linarith
  have sc : ∀ k : ℝ, 0 ≤ k → k * Real.sqrt (∑ i, ‖a.get i - b.get i‖ ^ 2) = Real.sqrt (∑ i, (k * ‖a.get i - b.get i‖) ^ 2) := by
    intro k hk
    simp only [mul_pow]
    rw [← Finset.mul_sum, Real.sqrt_mul (sq_nonneg _), Real.sqrt_sq hk]
  have up : Real.sqrt (∑ i, ‖Fl.flC fl (a.get i - b.get i)‖ ^ 2) ≤ (1 + u) * Real.sqrt (∑ i, ‖a.get i - b.get i‖ ^ 2) := by
    rw [sc _ (by linarith)]
    exact Real.sqrt_le_sqrt (Finset.sum_le_sum fun i _ => pow_le_pow_left₀ (norm_nonneg _) (key i).1 2)
  have lo : (1 - u) * Real.sqrt (∑ i, ‖a.get i - b.get i‖ ^ 2) ≤ Real.sqrt (∑ i, ‖Fl.flC fl (a.get i - b.get i)‖ ^ 2) := by
    rcases le_or_gt u 1 with h1 | h1
    · rw [sc _ (by linarith)]
      exact Real.sqrt_le_sqrt (Finset.sum_le_sum fun i _ => pow_le_pow_left₀ (mul_nonneg (by linarith) (norm_nonneg _)) (key i).2 2)
    · have := Real.sqrt_nonneg (∑ i, ‖Fl.flC fl (a.get i - b.get i)‖ ^ 2)
      have := Real.sqrt_nonneg (∑ i, ‖a.get i - b.get i‖ ^ 2)
      nlinarith
  have hg := h.one_le (dim + 2)
  rw [show dim + 3 = dim + 2 + 1 by ring, pow_succ]
  generalize Real.sqrt (∑ i, ‖Fl.flC fl (a.get i - b.get i)‖ ^ 2) = X at *
  have hY := Real.sqrt_nonneg (∑ i, ‖a.get i - b.get i‖ ^ 2)
  generalize Real.sqrt (∑ i, ‖a.get i - b.get i‖ ^ 2) = Y at *
  generalize (1 + u) ^ (dim + 2) = g at *
  have e1 : (g - 1) * X ≤ (g - 1) * ((1 + u) * Y) := mul_le_mul_of_nonneg_left up (by linarith)
  rw [abs_le] at this ⊢
  constructor <;> nlinarith

/-! ## C113 -/

private theorem part_step (f : ℂ → ℝ) (ha : ∀ z w, f (z + w) = f z + f w) (hs : ∀ z w, f (z - w) = f z - f w) (hf : ∀ z, f (Fl.flC fl z) = fl (f z)) (mod : ℂ → ℝ)
    (st : ℂ × ℂ) (e : ℂ) :
    f (Fl.sumCompStepC fl mod st e).1 = fl (f st.1 + f e) ∧
    f (Fl.sumCompStepC fl mod st e).2 =
      if mod st.1 > mod e then fl (f st.2 + fl (fl (f st.1 - fl (f st.1 + f e)) + f e)) else fl (f st.2 + fl (fl (f e - fl (f st.1 + f e)) + f st.1)) := by
  refine ⟨by simp only [Fl.sumCompStepC, hf, ha], ?_⟩
  simp only [Fl.sumCompStepC]
  split <;> simp only [hf, ha, hs]

/-- C113: in exact arithmetic the result is the sum with a zero compensation, whatever `std::abs` does. -/
theorem C113_exact (mod : ℂ → ℝ) (v : Fin n → ℂ) : Fl.sumCompensatedC id mod v = (∑ i, v i, 0) := by
  have : ∀ (l : List ℂ) (s : ℂ), l.foldl (Fl.sumCompStepC id mod) (s, 0) = (s + l.sum, 0) := by
    intro l
    induction l with
    | nil => intro s; simp
    | cons x l ih =>
      intro s
      rw [List.foldl_cons]
      have e : Fl.sumCompStepC id mod (s, 0) x = (s + x, 0) := by
        have e0 : ∀ z, Fl.flC id z = z := fun z => rfl
        simp [Fl.sumCompStepC, e0]
      rw [e, ih, List.sum_cons, add_assoc]
  unfold Fl.sumCompensatedC
  rw [this]
  have e0 : ∀ z, Fl.flC id z = z := fun z => rfl
  simp [Fl.fast2SumC, e0, List.sum_ofFn]

/-- C113: in exact arithmetic `DotCompensated` is the inner product with a zero compensation. -/
theorem C113_dot_exact (mod : ℂ → ℝ) (a b : Fin n → ℂ) :
    Fl.dotCompensatedC id (fun x y z w => x * y + z * w) (fun x y z w => x * y - z * w) mod a b = (∑ i, a i * star (b i), 0) := by
  rw [Fl.dotCompensatedC, C113_exact]
  congr 1

/-- C113: a vector of real numbers is summed as by the real `SumCompensated` (whose error is of second order, C19). Missing: vectors with imaginary parts
(`C113_violated`). -/
theorem C113_real_partial (h0 : fl 0 = 0) {mod : ℂ → ℝ} (hm : ∀ x : ℝ, mod x = |x|) (v : Fin n → ℝ) :
    Fl.sumCompensatedC fl mod (fun i => (v i : ℂ)) = (((sumCompFl fl v).1 : ℂ), ((sumCompFl fl v).2 : ℂ)) := by
  have e0 : ∀ x : ℝ, Fl.flC fl (x : ℂ) = ((fl x : ℝ) : ℂ) := fun x => by
    apply Complex.ext
    · rfl
    · exact h0
  have step : ∀ s cc x : ℝ, Fl.sumCompStepC fl mod ((s : ℂ), (cc : ℂ)) (x : ℂ) =
      (((sumCompStep (fun a b => fl (a + b)) (fun a b => fl (a - b)) (s, cc) x).1 : ℂ),
        ((sumCompStep (fun a b => fl (a + b)) (fun a b => fl (a - b)) (s, cc) x).2 : ℂ)) := by
    intro s cc x
    simp only [Fl.sumCompStepC, sumCompStep, hm]
    split <;> simp only [← Complex.ofReal_add, ← Complex.ofReal_sub, e0]
  have fold : ∀ (l : List ℝ) (st : ℝ × ℝ), (l.map fun x : ℝ => (x : ℂ)).foldl (Fl.sumCompStepC fl mod) ((st.1 : ℂ), (st.2 : ℂ)) =
      (((l.foldl (sumCompStep (fun a b => fl (a + b)) (fun a b => fl (a - b))) st).1 : ℂ),
        ((l.foldl (sumCompStep (fun a b => fl (a + b)) (fun a b => fl (a - b))) st).2 : ℂ)) := by
    intro l
    induction l with
    | nil => intro st; rfl
    | cons x l ih =>
      intro st
      rw [List.map_cons, List.foldl_cons, List.foldl_cons, step, ih]
  have hl : (List.ofFn fun i => (v i : ℂ)) = (List.ofFn v).map fun x : ℝ => (x : ℂ) := by rw [List.map_ofFn]; rfl
  have := fold (List.ofFn v) (0, 0)
  unfold Fl.sumCompensatedC sumCompFl sumCompensated
  rw [hl]
  simp only [Complex.ofReal_zero] at this
  rw [this]
  simp only [Fl.fast2SumC, fast2Sum, ← Complex.ofReal_add, ← Complex.ofReal_sub, e0]

/-- One step of the loop on one part. -/
private theorem comp_step (h : Rounding fl u) {s cc x a d S g : ℝ} (had : a + d = s + x) (hd : |d| ≤ g * (S + |x|)) (hsx : |s + x| ≤ g * (S + |x|)) :
    |fl (cc + fl (fl (a - fl (s + x)) + d))| ≤ (1 + u) * (|cc| + (1 + u) * (u * (2 + u) * (g * (S + |x|)))) := by
  have hu := h.u_nonneg
  set B := g * (S + |x|) with hB
  clear_value B
  have up : ∀ y, |fl y| ≤ (1 + u) * |y| := fun y => by
    have := abs_sub_abs_le_abs_sub (fl y) y
    linarith [h.err y]
  have e1 := h.err (s + x)
  have e2 := h.err (a - fl (s + x))
  set t := fl (s + x)
  set w := fl (a - t)
  clear_value t w
  have f1 : |s + x - t| ≤ u * B := by rw [abs_sub_comm]; exact e1.trans (mul_le_mul_of_nonneg_left hsx hu)
  have f2 : |a - t| ≤ B + u * B := by
    rw [show a - t = (s + x - t) + -d by linarith]
    have := abs_add_le (s + x - t) (-d)
    rw [abs_neg] at this
    linarith
  have f3 : |w + d| ≤ u * (2 + u) * B := by
    rw [show w + d = (w - (a - t)) + (s + x - t) by linarith]
    have := abs_add_le (w - (a - t)) (s + x - t)
    have := mul_le_mul_of_nonneg_left f2 hu
    linarith
  calc |fl (cc + fl (w + d))| ≤ (1 + u) * |cc + fl (w + d)| := up _
    _ ≤ (1 + u) * (|cc| + (1 + u) * (u * (2 + u) * B)) := by
      apply mul_le_mul_of_nonneg_left _ (by linarith)
      have h1 := abs_add_le cc (fl (w + d))
      have h2 := up (w + d)
      have h3 := mul_le_mul_of_nonneg_left f3 (by linarith : (0 : ℝ) ≤ 1 + u)
      linarith

private theorem comp_fold (h : Rounding fl u) (f : ℂ → ℝ) (h0 : f 0 = 0) (ha : ∀ z w, f (z + w) = f z + f w) (hs : ∀ z w, f (z - w) = f z - f w)
    (hf : ∀ z, f (Fl.flC fl z) = fl (f z)) (mod : ℂ → ℝ) (l : List ℂ) :
    let st := l.foldl (Fl.sumCompStepC fl mod) (0, 0)
    let S := (l.map fun z => |f z|).sum
    0 ≤ S ∧ |f st.1 - (l.map f).sum| ≤ ((1 + u) ^ l.length - 1) * S ∧ |f st.1| ≤ (1 + u) ^ l.length * S ∧
      |f st.2| ≤ l.length * (u * (2 + u)) * (1 + u) ^ (2 * l.length) * S := by
  have hu := h.u_nonneg
  induction l using List.reverseRecOn with
  | nil => simp [h0]
  | append_singleton l x ih =>
    simp only at ih ⊢
    obtain ⟨i0, i1, i2, i3⟩ := ih
    rw [List.foldl_append, List.foldl_cons, List.foldl_nil]
    obtain ⟨p1, p2⟩ := part_step f ha hs hf mod (l.foldl (Fl.sumCompStepC fl mod) (0, 0)) x
    simp only [List.map_append, List.sum_append, List.map_cons, List.map_nil, List.sum_cons, List.sum_nil, add_zero, List.length_append, List.length_cons,
      List.length_nil, zero_add]
    rw [p1, p2]
    set s := f (l.foldl (Fl.sumCompStepC fl mod) (0, 0)).1
    set cc := f (l.foldl (Fl.sumCompStepC fl mod) (0, 0)).2
    set S := (l.map fun z => |f z|).sum
    set E := (l.map f).sum
    set k := l.length
    generalize f x = y at *
    have hx0 := abs_nonneg y
    have hg := h.one_le k
    have hsx : |s + y| ≤ (1 + u) ^ k * (S + |y|) := by
      have := abs_add_le s y
      nlinarith
    have hy : |y| ≤ (1 + u) ^ k * (S + |y|) := by nlinarith
    have hs' : |s| ≤ (1 + u) ^ k * (S + |y|) := by nlinarith
    have e1 := h.err (s + y)
    refine ⟨by positivity, ?_, ?_, ?_⟩
    · have t := abs_add_le (fl (s + y) - (s + y)) (s - E)
      rw [show fl (s + y) - (s + y) + (s - E) = fl (s + y) - (E + y) by ring] at t
      have := mul_le_mul_of_nonneg_left hsx hu
      rw [pow_succ]
      nlinarith
    · have := abs_sub_abs_le_abs_sub (fl (s + y)) (s + y)
      rw [pow_succ]
      nlinarith
    · have key : ∀ r : ℝ, |r| ≤ (1 + u) * (|cc| + (1 + u) * (u * (2 + u) * ((1 + u) ^ k * (S + |y|)))) →
          |r| ≤ ((k + 1 : ℕ) : ℝ) * (u * (2 + u)) * (1 + u) ^ (2 * (k + 1)) * (S + |y|) := by
        intro r hr
        refine hr.trans ?_
        have hU : 0 ≤ u * (2 + u) := by positivity
        have q1 : (1 + u) ^ (2 * k + 1) ≤ (1 + u) ^ (2 * (k + 1)) := pow_le_pow_right₀ (by linarith) (by omega)
        have q2 : (1 + u) ^ (k + 2) ≤ (1 + u) ^ (2 * (k + 1)) := pow_le_pow_right₀ (by linarith) (by omega)
        have r1 : (1 + u) * |cc| ≤ k * (u * (2 + u)) * (1 + u) ^ (2 * (k + 1)) * (S + |y|) := by
          calc (1 + u) * |cc| ≤ (1 + u) * (k * (u * (2 + u)) * (1 + u) ^ (2 * k) * S) := mul_le_mul_of_nonneg_left i3 (by linarith)
            _ = k * (u * (2 + u)) * (1 + u) ^ (2 * k + 1) * S := by ring
            _ ≤ k * (u * (2 + u)) * (1 + u) ^ (2 * (k + 1)) * (S + |y|) := by
              apply mul_le_mul (mul_le_mul_of_nonneg_left q1 (by positivity)) (by linarith) i0 (by positivity)
        have r2 : (1 + u) * ((1 + u) * (u * (2 + u) * ((1 + u) ^ k * (S + |y|)))) ≤ u * (2 + u) * (1 + u) ^ (2 * (k + 1)) * (S + |y|) := by
          calc _ = u * (2 + u) * (1 + u) ^ (k + 2) * (S + |y|) := by ring
            _ ≤ _ := mul_le_mul_of_nonneg_right (mul_le_mul_of_nonneg_left q2 hU) (by linarith)
        push_cast
        linarith
      split
      · exact key _ (comp_step h rfl hy hsx)
      · exact key _ (comp_step h (add_comm _ _) hs' hsx)

/-- C113: whatever the imaginary parts and `std::abs` are, the error is at most of the order of that of a plain sum, part by part. -/
theorem C113_bound (h : Rounding fl u) (mod : ℂ → ℝ) (v : Fin n → ℂ) :
    |((Fl.sumCompensatedC fl mod v).1 - ∑ i, v i).re| ≤ ((1 + u) ^ (n + 1) - 1 + n * (u * (2 + u)) * (1 + u) ^ (2 * n + 1)) * ∑ i, |(v i).re| ∧
    |((Fl.sumCompensatedC fl mod v).1 - ∑ i, v i).im| ≤ ((1 + u) ^ (n + 1) - 1 + n * (u * (2 + u)) * (1 + u) ^ (2 * n + 1)) * ∑ i, |(v i).im| := by
  have hu := h.u_nonneg
  have key : ∀ f : ℂ → ℝ, f 0 = 0 → (∀ z w, f (z + w) = f z + f w) → (∀ z w, f (z - w) = f z - f w) → (∀ z, f (Fl.flC fl z) = fl (f z)) →
      |f (Fl.sumCompensatedC fl mod v).1 - ∑ i, f (v i)| ≤ ((1 + u) ^ (n + 1) - 1 + n * (u * (2 + u)) * (1 + u) ^ (2 * n + 1)) * ∑ i, |f (v i)| := by
    intro f h0 ha hs hf
    obtain ⟨j0, j1, j2, j3⟩ := comp_fold h f h0 ha hs hf mod (List.ofFn v)
    simp only [Fl.sumCompensatedC, Fl.fast2SumC, hf, ha]
    rw [List.map_ofFn, List.sum_ofFn] at j0 j2 j3
    rw [List.map_ofFn, List.sum_ofFn, List.map_ofFn, List.sum_ofFn] at j1
    rw [List.length_ofFn] at j1 j2 j3
    simp only [Function.comp_apply] at j0 j1 j2 j3
    set s := f (List.foldl (Fl.sumCompStepC fl mod) (0, 0) (List.ofFn v)).1
    set cc := f (List.foldl (Fl.sumCompStepC fl mod) (0, 0) (List.ofFn v)).2
    have e1 := h.err (s + cc)
    have e2 := abs_add_le s cc
    have t1 := abs_add_le (fl (s + cc) - (s + cc)) (s + cc - ∑ i, f (v i))
    rw [sub_add_sub_cancel] at t1
    have t2 := abs_add_le (s - ∑ i, f (v i)) cc
    rw [show s - ∑ i, f (v i) + cc = s + cc - ∑ i, f (v i) by ring] at t2
    have e3 := mul_le_mul_of_nonneg_left (e2.trans (add_le_add j2 j3)) hu
    rw [pow_succ (1 + u) n, pow_succ (1 + u) (2 * n)]
    linarith
  rw [Complex.sub_re, Complex.sub_im, Complex.re_sum, Complex.im_sum]
  exact ⟨key Complex.re rfl Complex.add_re Complex.sub_re fun z => rfl, key Complex.im rfl Complex.add_im Complex.sub_im fun z => rfl⟩

/-- C113 does not hold for complex vectors: the comparison of the moduli does not tell which real part is larger, so that the compensation of the real parts is
lost. For every precision and every `std::abs` that is not far off there are four complex floats with a sum other than zero for which `SumCompensated` returns
zero and no compensation; the sum of their real parts is compensated exactly. -/
theorem C113_violated {q : ℕ} (hq : 4 ≤ q) (hfl : RoundsToNearest q fl) {mod : ℂ → ℝ} (hm : ∀ z, |mod z - ‖z‖| ≤ 1 / 4 * ‖z‖) :
    ∃ v : Fin 4 → ℂ, (∀ i, IsFloat q (v i).re ∧ IsFloat q (v i).im) ∧ ∑ i, v i ≠ 0 ∧ Fl.sumCompensatedC fl mod v = (0, 0) ∧
      sumCompFl fl (fun i => (v i).re) = ((∑ i, v i).re, 0) := by
  set ε : ℝ := (2 : ℝ) ^ (-(q : ℤ) - 2) with hε
  have hε0 : 0 < ε := by positivity
  have hε1 : ε ≤ 1 / 64 := by
    calc ε ≤ (2 : ℝ) ^ (-6 : ℤ) := zpow_le_zpow_right₀ (by norm_num) (by omega)
      _ = 1 / 64 := by norm_num
  have hlt : ε < (2 : ℝ) ^ (-(q : ℤ) - 1) := zpow_lt_zpow_right₀ (by norm_num) (by omega)
  have two : (1 : ℤ) < 2 ^ q := one_lt_pow₀ (by norm_num) (by omega)
  have F0 : IsFloat q 0 := ⟨0, 0, by norm_num, by rw [abs_zero]; positivity⟩
  have F1 : IsFloat q 1 := ⟨1, 0, by norm_num, by rw [abs_one]; exact two⟩
  have F1' : IsFloat q (-1) := ⟨-1, 0, by norm_num, by rw [abs_neg, abs_one]; exact two⟩
  have F4 : IsFloat q 4 := ⟨1, 2, by norm_num, by rw [abs_one]; exact two⟩
  have F4' : IsFloat q (-4) := ⟨-1, 2, by norm_num, by rw [abs_neg, abs_one]; exact two⟩
  have Fε : IsFloat q ε := ⟨1, -(q : ℤ) - 2, by rw [hε]; norm_num, by rw [abs_one]; exact two⟩
  have f0 := hfl.fixed F0
  have f1 := hfl.fixed F1
  have f1' := hfl.fixed F1'
  have f4 := hfl.fixed F4
  have f4' := hfl.fixed F4'
  have fε := hfl.fixed Fε
  have g1 : fl (ε + 1) = 1 := round_to_one (by omega) hfl (by rw [show 1 - (ε + 1) = -ε by ring, abs_neg, abs_of_pos hε0]; exact hlt)
  have g2 : fl (ε - 1) = -1 := by
    rw [show ε - 1 = -(1 - ε) by ring, hfl.odd, round_to_one (by omega) hfl]
    rw [show 1 - (1 - ε) = ε by ring, abs_of_pos hε0]; exact hlt
  set v : Fin 4 → ℂ := ![⟨ε, 4⟩, ⟨1, 0⟩, ⟨-1, 0⟩, ⟨0, -4⟩] with hv
  have hsum : ∑ i, v i = (ε : ℂ) := by
    rw [Fin.sum_univ_four]
    apply Complex.ext <;> simp [hv]
  refine ⟨v, ?_, ?_, ?_, ?_⟩
  · intro i
    fin_cases i
    · exact ⟨Fε, F4⟩
    · exact ⟨F1, F0⟩
    · exact ⟨F1', F0⟩
    · exact ⟨F0, F4'⟩
  · rw [hsum]; exact_mod_cast hε0.ne'
  · have lo : ∀ x : ℝ, 3 ≤ mod ⟨x, 4⟩ := by
      intro x
      have h1 : (4 : ℝ) ≤ ‖(⟨x, 4⟩ : ℂ)‖ := by
        have := Complex.abs_im_le_norm (⟨x, 4⟩ : ℂ)
        simpa using this
      have := (abs_le.1 (hm ⟨x, 4⟩)).1
      linarith
    have hi : ∀ x : ℝ, |x| = 1 → mod ⟨x, 0⟩ ≤ 5 / 4 := by
      intro x hx
      have h1 : ‖(⟨x, 0⟩ : ℂ)‖ = 1 := by
        have := Complex.norm_real x
        rw [Real.norm_eq_abs, hx] at this
        exact this
      have := (abs_le.1 (hm ⟨x, 0⟩)).2
      rw [h1] at this
      linarith
    have s1 : Fl.sumCompStepC fl mod (0, 0) ⟨ε, 4⟩ = (⟨ε, 4⟩, 0) := by
      apply Prod.ext
      · apply Complex.ext <;> simp [Fl.sumCompStepC, Fl.flC, fε, f4]
      · simp only [Fl.sumCompStepC]
        split <;> apply Complex.ext <;> simp [Fl.flC, fε, f4, f0, hfl.odd]
    have s2 : Fl.sumCompStepC fl mod (⟨ε, 4⟩, 0) ⟨1, 0⟩ = (⟨1, 4⟩, 0) := by
      apply Prod.ext
      · apply Complex.ext <;> simp [Fl.sumCompStepC, Fl.flC, g1, f4]
      · simp only [Fl.sumCompStepC]
        rw [if_pos (by linarith [lo ε, hi 1 abs_one])]
        apply Complex.ext <;> simp [Fl.flC, g1, g2, f4, f0]
    have s3 : Fl.sumCompStepC fl mod (⟨1, 4⟩, 0) ⟨-1, 0⟩ = (⟨0, 4⟩, 0) := by
      apply Prod.ext
      · apply Complex.ext <;> simp [Fl.sumCompStepC, Fl.flC, f0, f4]
      · simp only [Fl.sumCompStepC]
        rw [if_pos (by linarith [lo 1, hi (-1) (by rw [abs_neg, abs_one])])]
        apply Complex.ext <;> simp [Fl.flC, f4, f0, f1]
    have s4 : Fl.sumCompStepC fl mod (⟨0, 4⟩, 0) ⟨0, -4⟩ = (0, 0) := by
      apply Prod.ext
      · apply Complex.ext <;> simp [Fl.sumCompStepC, Fl.flC, f0]
      · simp only [Fl.sumCompStepC]
        split <;> apply Complex.ext <;> simp [Fl.flC, f4, f4', f0]
    have hl : List.ofFn v = [⟨ε, 4⟩, ⟨1, 0⟩, ⟨-1, 0⟩, ⟨0, -4⟩] := by
      simp [hv, List.ofFn_succ]
    unfold Fl.sumCompensatedC
    rw [hl]
    simp only [List.foldl_cons, List.foldl_nil, s1, s2, s3, s4]
    apply Prod.ext <;> apply Complex.ext <;> simp [Fl.fast2SumC, Fl.flC, f0]
  · have hl : (List.ofFn fun i => (v i).re) = [ε, 1, -1, 0] := by
      simp [hv, List.ofFn_succ]
    unfold sumCompFl sumCompensated
    rw [hl, hsum]
    simp only [List.foldl_cons, List.foldl_nil]
    have s1 : sumCompStep (fun a b => fl (a + b)) (fun a b => fl (a - b)) (0, 0) ε = (ε, 0) := by
      simp only [sumCompStep]
      split <;> simp [fε, f0, hfl.odd]
    have s2 : sumCompStep (fun a b => fl (a + b)) (fun a b => fl (a - b)) (ε, 0) 1 = (1, ε) := by
      simp only [sumCompStep]
      rw [if_neg (by rw [abs_of_pos hε0, abs_one]; linarith)]
      simp [g1, f0, fε]
    have s3 : sumCompStep (fun a b => fl (a + b)) (fun a b => fl (a - b)) (1, ε) (-1) = (0, ε) := by
      simp only [sumCompStep]
      split <;> simp [f0, f1, f1', fε]
    have s4 : sumCompStep (fun a b => fl (a + b)) (fun a b => fl (a - b)) (0, ε) 0 = (0, ε) := by
      simp only [sumCompStep]
      split <;> simp [f0, fε]
    rw [s1, s2, s3, s4]
    simp [fast2Sum, fε, f0]

/-! ## The hypotheses are met -/

/-- Rounding to nearest with 24 bits; products with a fused second operation; a tree that is no chain; the exact modulus. -/
example : Rounding (flAway 24) ((2 : ℝ) ^ (-((24 : ℕ) : ℤ))) ∧ Fl.IsProdSum (flAway 24) (fun a b c d => flAway 24 (a * b + flAway 24 (c * d))) ∧
    Fl.IsProdDiff (flAway 24) (fun a b c d => flAway 24 (flAway 24 (a * b) - c * d)) ∧ (RTree.node (.node (.leaf 0) (.leaf 1)) (.node (.leaf 2) (.leaf 3)) : RTree 4).Valid ∧
    (∀ z : ℂ, |‖z‖ - ‖z‖| ≤ 1 / 4 * ‖z‖) ∧ (4 ≤ 24 ∧ RoundsToNearest 24 (flAway 24)) := by
  have hR := flAway_roundsToNearest (p := 24) (by norm_num)
  refine ⟨hR.rounding (by norm_num), fun a b c d => Or.inr (Or.inl rfl), fun a b c d => Or.inr (Or.inr rfl), ?_, fun z => ?_, by norm_num, hR⟩
  · unfold RTree.Valid; simp [RTree.leaves]; decide
  · rw [sub_self, abs_zero]; positivity

/-- The bounds are not empty: a sum of two complex floats in a register, and one without. -/
example (v : Vec Cfg.sse ℂ 4 false) (hv : ∀ i, (v.get i).re = 1 ∧ (v.get i).im = 0) (tb : RTree (batchSize 4 false)) (ts : RTree 5) (htb : tb.Valid) (hts : ts.Valid) :
    Fl.sumC id tb ts v = 4 := by
  have h : Rounding (id : ℝ → ℝ) 0 := ⟨le_rfl, fun _ => rfl, fun _ => rfl, fun x => by simp, fun _ _ _ _ _ => rfl, fun _ _ _ _ _ => rfl⟩
  obtain ⟨h1, h2⟩ := C112_sum h tb ts htb hts v (fun i => ⟨rfl, rfl⟩)
  rw [add_zero, one_pow, sub_self, zero_mul, abs_nonpos_iff] at h1 h2
  have : Fl.sumC id tb ts v - ∑ i, v.get i = 0 := Complex.ext h1 h2
  rw [sub_eq_zero.1 this]
  apply Complex.ext
  · rw [Complex.re_sum]; simp [hv]
  · rw [Complex.im_sum]; simp [hv]

end Mathter.Props
