import Verif.Model.IeeeMatrixNorm
import Verif.Props.IeeeFinite
import Verif.Props.RoundedMatrixNorm

/-!
# Property C158: NaN, infinities and overflow in `Sum`, `Trace` and `Norm` of matrices
-/

namespace Mathter.Props
open Mathter Fx
variable {c : Cfg} {r n : ℕ} {o : Order} {L : Layout} {p : Bool} {fl : ℝ → Fx} {fl₀ : ℝ → ℝ} {u : ℝ}

/-! ## NaN -/

private theorem mn_acc_nan {N : ℕ} (g : Fin N → Fx) (h : ∃ s, g s = .nan) : forUp N 0 (fun s acc => Fx.add fl acc (g s)) (.fin 0) = .nan := by
  have := forUp_inv (n := N) (lo := 0) (body := fun s acc => Fx.add fl acc (g s)) (s := Fx.fin 0) (fun q acc => (∃ s : Fin N, s.val < q ∧ g s = .nan) → acc = .nan)
    (Nat.zero_le _) (fun ⟨s, hs, _⟩ => absurd hs (Nat.not_lt_zero _)) (by
      rintro i acc - ih ⟨s, hs, e⟩
      rcases Nat.lt_succ_iff_lt_or_eq.mp hs with hs | hs
      · show Fx.add fl acc (g i) = .nan
        rw [ih ⟨s, hs, e⟩]; exact Fx.nan_add' _
      · show Fx.add fl acc (g i) = .nan
        rw [← Fin.ext hs, e]; exact Fx.add_nan' _)
  obtain ⟨s, e⟩ := h
  exact this ⟨s, s.isLt, e⟩

/-- C158: `Sum` of a matrix with a NaN is NaN. -/
theorem C158_sum_nan (tb : RTree (batchSize (stripeDim L r n) false)) (ts : RTree (stripeDim L r n + 1)) (htb : tb.Valid) (hts : ts.Valid) (m : Mat c Fx r n o L p)
    (h : ∃ i j, m.get i j = .nan) : Ie.matSum fl tb ts m = .nan := by
  obtain ⟨i, j, e⟩ := h
  cases L
  · exact mn_acc_nan _ ⟨i, C92_sum tb ts htb hts _ ⟨j, e⟩⟩
  · exact mn_acc_nan _ ⟨j, C92_sum tb ts htb hts _ ⟨i, e⟩⟩

/-- C158: `Trace` of a matrix with a NaN on the diagonal is NaN; ... -/
theorem C158_trace_nan (tb : RTree (batchSize n false)) (ts : RTree (n + 1)) (htb : tb.Valid) (hts : ts.Valid) (v0 : Vec c Fx n p) (m : Mat c Fx n n o L p)
    (h : ∃ i, m.get i i = .nan) : Ie.matTrace fl tb ts v0 m = .nan := by
  obtain ⟨i, e⟩ := h
  exact C92_sum tb ts htb hts _ ⟨i, by rw [Vec.get_setLoop fun i => m.get i i]; exact e⟩

private theorem mn_same (conv : Bool) (m0 m : Mat c Fx r n o L p) (i : Fin r) (j : Fin n) : (Ie.matSame conv m0 m).get i j = m.get i j := by
  apply Mat.get_of_stripes (fun z : Fx => z) m
  intro s t
  unfold Ie.matSame Mat.mapStripesTo
  rw [Mat.stripeLoopMat (fun s => Vec.doUnary conv (fun x => x) (m.stripes s)), Vec.get_doUnary]

private theorem mn_element (conv : Bool) (jr : Vec c Fx n p) (jc : Vec c Fx r p) (m0 : Mat c Fx r n o L p) (m1 m2 : Mat c Fx r n o L (p && p))
    (m : Mat c Fx r n o L p) (i : Fin r) (j : Fin n) :
    (Ie.matSame conv m2 (Mat.elementwise (fun v w => Vec.doBinary conv (Fx.mul fl) v w) jr jc m1 m (Ie.matSame conv m0 m))).get i j =
      Fx.mul fl (m.get i j) (m.get i j) := by
  rw [mn_same, Mat.elementwise_get _ (Fx.mul fl) (fun v w i => by rw [Vec.get_doBinary]), mn_same]

/-- C158: `Norm` of a matrix with a NaN is NaN. -/
theorem C158_norm_nan (conv : Bool) (tb : RTree (batchSize (stripeDim L r n) false)) (ts : RTree (stripeDim L r n + 1)) (htb : tb.Valid) (hts : ts.Valid)
    (jr : Vec c Fx n p) (jc : Vec c Fx r p) (m0 : Mat c Fx r n o L p) (m1 m2 : Mat c Fx r n o L (p && p)) (m : Mat c Fx r n o L p)
    (h : ∃ i j, m.get i j = .nan) : Ie.matNorm fl conv tb ts jr jc m0 m1 m2 m = .nan := by
  obtain ⟨i, j, e⟩ := h
  unfold Ie.matNorm Ie.matNormSquared
  rw [C158_sum_nan tb ts htb hts _ ⟨i, j, by rw [mn_element, e]; exact Fx.mul_nan' _⟩]
  rfl

/-! ## Infinities -/

/-- Positive infinity or a number that is not negative. -/
private def MnPos (a : Fx) : Prop := a = .inf false ∨ ∃ x, 0 ≤ x ∧ a = .fin x

private theorem mn_round (hf : RoundsFx fl) {x : ℝ} (hx : 0 ≤ x) : MnPos (fl x) := by
  have h1 := hf.not_nan x
  have h2 := hf.nonneg x hx
  generalize fl x = a at h1 h2
  rcases a with _ | (_ | _) | y
  · exact absurd rfl h1
  · exact Or.inl rfl
  · simp [Fx.val] at h2
  · exact Or.inr ⟨y, by simpa [Fx.val] using h2, rfl⟩

private theorem mn_add (hf : RoundsFx fl) {a b : Fx} (ha : MnPos a) (hb : MnPos b) :
    MnPos (Fx.add fl a b) ∧ (a = .inf false ∨ b = .inf false → Fx.add fl a b = .inf false) := by
  rcases ha with rfl | ⟨x, hx, rfl⟩ <;> rcases hb with rfl | ⟨y, hy, rfl⟩
  · exact ⟨Or.inl rfl, fun _ => rfl⟩
  · exact ⟨Or.inl rfl, fun _ => rfl⟩
  · exact ⟨Or.inl rfl, fun _ => rfl⟩
  · exact ⟨mn_round hf (add_nonneg hx hy), fun h => by simp at h⟩

private theorem mn_eval (hf : RoundsFx fl) {k : ℕ} (b : Fin k → Fx) (t : RTree k) (hb : ∀ j, MnPos (b j)) :
    MnPos (t.eval (Fx.add fl) b) ∧ ((∃ j ∈ t.leaves, b j = .inf false) → t.eval (Fx.add fl) b = .inf false) := by
  induction t with
  | leaf j => exact ⟨hb j, fun ⟨k, hk, e⟩ => by simp only [RTree.leaves, List.mem_singleton] at hk; subst hk; exact e⟩
  | node l r hl hr =>
    have := mn_add hf hl.1 hr.1
    refine ⟨this.1, fun ⟨k, hk, e⟩ => this.2 ?_⟩
    simp only [RTree.leaves, List.mem_append] at hk
    exact hk.imp (fun hk => hl.2 ⟨k, hk, e⟩) fun hk => hr.2 ⟨k, hk, e⟩

private theorem mn_sum (hf : RoundsFx fl) {d : ℕ} (tb : RTree (batchSize d false)) (ts : RTree (d + 1)) (htb : tb.Valid) (hts : ts.Valid) (v : Vec c Fx d p)
    (hv : ∀ i, MnPos (v.get i)) : MnPos (Ie.sum fl tb ts v) ∧ ((∃ i, v.get i = .inf false) → Ie.sum fl tb ts v = .inf false) := by
  obtain ⟨k, t, b, e, hb, hb', -⟩ := sum_lanes (fl := fl) tb ts htb hts v
  have := mn_eval hf b t fun j => by
    rcases hb' j with hj | ⟨i, hj⟩ <;> rw [hj]
    · exact Or.inr ⟨0, le_rfl, rfl⟩
    · exact hv i
  rw [e]
  exact ⟨this.1, fun ⟨i, hi⟩ => this.2 (by obtain ⟨j, hj, ej⟩ := hb i; exact ⟨j, hj, ej.trans hi⟩)⟩

private theorem mn_acc (hf : RoundsFx fl) {N : ℕ} (g : Fin N → Fx) (hg : ∀ s, MnPos (g s)) :
    MnPos (forUp N 0 (fun s acc => Fx.add fl acc (g s)) (.fin 0)) ∧
      ((∃ s, g s = .inf false) → forUp N 0 (fun s acc => Fx.add fl acc (g s)) (.fin 0) = .inf false) := by
  have := forUp_inv (n := N) (lo := 0) (body := fun s acc => Fx.add fl acc (g s)) (s := Fx.fin 0)
    (fun q acc => MnPos acc ∧ ((∃ s : Fin N, s.val < q ∧ g s = .inf false) → acc = .inf false))
    (Nat.zero_le _) ⟨Or.inr ⟨0, le_rfl, rfl⟩, fun ⟨s, hs, _⟩ => absurd hs (Nat.not_lt_zero _)⟩ (by
      intro i acc _ ih
      have := mn_add hf ih.1 (hg i)
      refine ⟨this.1, fun ⟨s, hs, e⟩ => this.2 ?_⟩
      rcases Nat.lt_succ_iff_lt_or_eq.mp hs with hs | hs
      · exact Or.inl (ih.2 ⟨s, hs, e⟩)
      · exact Or.inr (by rw [← Fin.ext hs]; exact e))
  exact ⟨this.1, fun ⟨s, e⟩ => this.2 ⟨s, s.isLt, e⟩⟩

private theorem mn_matSum (hf : RoundsFx fl) (tb : RTree (batchSize (stripeDim L r n) false)) (ts : RTree (stripeDim L r n + 1)) (htb : tb.Valid) (hts : ts.Valid)
    (m : Mat c Fx r n o L p) (hm : ∀ i j, MnPos (m.get i j)) :
    MnPos (Ie.matSum fl tb ts m) ∧ ((∃ i j, m.get i j = .inf false) → Ie.matSum fl tb ts m = .inf false) := by
  cases L
  · have h := fun s : Fin r => mn_sum hf tb ts htb hts (m.stripes s) fun t => hm s t
    have := mn_acc hf _ fun s => (h s).1
    exact ⟨this.1, fun ⟨i, j, e⟩ => this.2 ⟨i, (h i).2 ⟨j, e⟩⟩⟩
  · have h := fun s : Fin n => mn_sum hf tb ts htb hts (m.stripes s) fun t => hm t s
    have := mn_acc hf _ fun s => (h s).1
    exact ⟨this.1, fun ⟨i, j, e⟩ => this.2 ⟨j, (h j).2 ⟨i, e⟩⟩⟩

private theorem mn_sq (hf : RoundsFx fl) {a : Fx} (ha : a ≠ .nan) : MnPos (Fx.mul fl a a) ∧ ∀ s, a = .inf s → Fx.mul fl a a = .inf false := by
  rcases a with _ | (_ | _) | x
  · exact absurd rfl ha
  · exact ⟨Or.inl rfl, fun _ _ => rfl⟩
  · exact ⟨Or.inl rfl, fun _ _ => rfl⟩
  · exact ⟨mn_round hf (mul_self_nonneg x), fun s h => by simp at h⟩

/-- C158: `Norm` is NaN for no other matrices, and never negative: without a NaN it is positive infinity or a number from zero up, ... -/
theorem C158_norm_nonneg (hf : RoundsFx fl) (conv : Bool) (tb : RTree (batchSize (stripeDim L r n) false)) (ts : RTree (stripeDim L r n + 1)) (htb : tb.Valid)
    (hts : ts.Valid) (jr : Vec c Fx n p) (jc : Vec c Fx r p) (m0 : Mat c Fx r n o L p) (m1 m2 : Mat c Fx r n o L (p && p)) (m : Mat c Fx r n o L p)
    (hm : ∀ i j, m.get i j ≠ .nan) : Ie.matNorm fl conv tb ts jr jc m0 m1 m2 m = .inf false ∨ ∃ x, 0 ≤ x ∧ Ie.matNorm fl conv tb ts jr jc m0 m1 m2 m = .fin x := by
  have := (mn_matSum hf tb ts htb hts _ fun i j => by rw [mn_element conv jr jc m0 m1 m2 m]; exact (mn_sq hf (hm i j)).1).1
  unfold Ie.matNorm Ie.matNormSquared
  rcases this with e | ⟨x, hx, e⟩ <;> rw [e]
  · exact Or.inl rfl
  · show MnPos _
    unfold Fx.sqrt
    dsimp only
    rw [if_neg (not_lt.mpr hx)]
    exact mn_round hf (Real.sqrt_nonneg x)

/-- C158: ... and positive infinity as soon as an element is infinite. -/
theorem C158_norm_inf (hf : RoundsFx fl) (conv : Bool) (tb : RTree (batchSize (stripeDim L r n) false)) (ts : RTree (stripeDim L r n + 1)) (htb : tb.Valid)
    (hts : ts.Valid) (jr : Vec c Fx n p) (jc : Vec c Fx r p) (m0 : Mat c Fx r n o L p) (m1 m2 : Mat c Fx r n o L (p && p)) (m : Mat c Fx r n o L p)
    (hm : ∀ i j, m.get i j ≠ .nan) (h : ∃ i j s, m.get i j = .inf s) : Ie.matNorm fl conv tb ts jr jc m0 m1 m2 m = .inf false := by
  obtain ⟨i, j, s, e⟩ := h
  unfold Ie.matNorm Ie.matNormSquared
  rw [(mn_matSum hf tb ts htb hts _ fun i j => by rw [mn_element conv jr jc m0 m1 m2 m]; exact (mn_sq hf (hm i j)).1).2
    ⟨i, j, by rw [mn_element conv jr jc m0 m1 m2 m]; exact (mn_sq hf (hm i j)).2 s e⟩]
  rfl

/-! ## Finite results -/

private theorem mn_tracks (hf : Overflows fl fl₀) (tb : RTree (batchSize (stripeDim L r n) false)) (ts : RTree (stripeDim L r n + 1)) {m : Mat c Fx r n o L p}
    {w : Mat c ℝ r n o L p} (h : ∀ i j, Tracks (m.get i j) (w.get i j)) : Tracks (Ie.matSum fl tb ts m) (Fl.matSum fl₀ tb ts w) := by
  refine forUp_rel Tracks (tracks_fin _) fun s a x hx => hx.add hf (Ie.sum_tracks hf tb ts fun i => ?_)
  cases L
  · exact h s i
  · exact h i s

/-- C158: a finite `Sum` is accurate, whatever overflowed in between. -/
theorem C158_sum_finite (hf : Overflows fl fl₀) (h : Rounding fl₀ u) (tb : RTree (batchSize (stripeDim L r n) false)) (ts : RTree (stripeDim L r n + 1))
    (htb : tb.Valid) (hts : ts.Valid) (m : Mat c Fx r n o L p) (x : Mat c ℝ r n o L p) (hm : ∀ i j, m.get i j = .fin (x.get i j))
    (hx : ∀ i j, fl (x.get i j) = .fin (x.get i j)) (z : ℝ) (hz : Ie.matSum fl tb ts m = .fin z) :
    |z - ∑ i, ∑ j, x.get i j| ≤ ((1 + u) ^ (r + n) - 1) * ∑ i, ∑ j, |x.get i j| := by
  have e := mn_tracks hf tb ts (m := m) (w := x) (fun i j => by rw [hm]; exact tracks_fin _) z hz
  rw [e]
  exact C156_sum h tb ts htb hts x fun i j => hf.fix (hx i j)

/-- C158: so is a finite `Trace`, ... -/
theorem C158_trace_finite (hf : Overflows fl fl₀) (h : Rounding fl₀ u) (tb : RTree (batchSize n false)) (ts : RTree (n + 1)) (htb : tb.Valid) (hts : ts.Valid)
    (v0 : Vec c Fx n p) (m : Mat c Fx n n o L p) (x : Fin n → ℝ) (hm : ∀ i, m.get i i = .fin (x i)) (hx : ∀ i, fl (x i) = .fin (x i)) (z : ℝ)
    (hz : Ie.matTrace fl tb ts v0 m = .fin z) : |z - ∑ i, x i| ≤ ((1 + u) ^ (n - 1) - 1) * ∑ i, |x i| :=
  C124_sum hf h tb ts htb hts _ x (fun i => by rw [Vec.get_setLoop fun i => m.get i i]; exact hm i) hx z hz

/-- C158: ... and a finite `Norm`. -/
theorem C158_norm_finite (hf : Overflows fl fl₀) (h : Rounding fl₀ u) (conv : Bool) (tb : RTree (batchSize (stripeDim L r n) false))
    (ts : RTree (stripeDim L r n + 1)) (htb : tb.Valid) (hts : ts.Valid) (jr : Vec c Fx n p) (jc : Vec c Fx r p) (m0 : Mat c Fx r n o L p)
    (m1 m2 : Mat c Fx r n o L (p && p)) (m : Mat c Fx r n o L p) (x : Mat c ℝ r n o L p) (hm : ∀ i j, m.get i j = .fin (x.get i j)) (z : ℝ)
    (hz : Ie.matNorm fl conv tb ts jr jc m0 m1 m2 m = .fin z) :
    |z - Real.sqrt (∑ i, ∑ j, x.get i j ^ 2)| ≤ ((1 + u) ^ (r + n + 2) - 1) * Real.sqrt (∑ i, ∑ j, x.get i j ^ 2) := by
  let w : Mat c ℝ r n o L (p && p) := ⟨fun _ => Vec.ofFn fun _ => 0⟩
  have e := (mn_tracks hf tb ts (w := Mat.real conv w (Mat.elementwise (fun v w => Vec.doBinary conv (fun x y => fl₀ (x * y)) v w) (Vec.ofFn fun _ => 0)
    (Vec.ofFn fun _ => 0) w x (Mat.conj conv x x))) fun i j => by
      rw [mn_element conv jr jc m0 m1 m2 m, normSquared_element, hm]
      exact (tracks_fin _).mul hf (tracks_fin _)).sqrt hf z hz
  rw [e]
  exact C156_norm h conv tb ts htb hts _ _ x w w x

/-- The hypotheses hold: a 2 by 3 matrix with an infinity and one with a NaN, in either layout. -/
example (c : Cfg) (L : Layout) (o : Order) (p conv : Bool) (tb : RTree (batchSize (stripeDim L 2 3) false)) (ts : RTree (stripeDim L 2 3 + 1)) (htb : tb.Valid)
    (hts : ts.Valid) (jr : Vec c Fx 3 p) (jc : Vec c Fx 2 p) (m0 : Mat c Fx 2 3 o L p) (m1 m2 : Mat c Fx 2 3 o L (p && p)) (a b : Mat c Fx 2 3 o L p)
    (ha : ∀ i j, a.get i j = if i.val = 1 ∧ j.val = 2 then .inf true else .fin j.val) (hb : ∀ i j, b.get i j = if i.val = 1 ∧ j.val = 2 then .nan else .inf true) :
    Ie.matNorm .fin conv tb ts jr jc m0 m1 m2 a = .inf false ∧ Ie.matNorm .fin conv tb ts jr jc m0 m1 m2 b = .nan ∧ Ie.matSum .fin tb ts b = .nan := by
  have hf : RoundsFx .fin := ⟨fun _ => by simp, rfl, fun x hx => by simpa [Fx.val] using hx⟩
  refine ⟨C158_norm_inf hf conv tb ts htb hts jr jc m0 m1 m2 a (fun i j => ?_) ⟨1, 2, true, by rw [ha]; rfl⟩,
    C158_norm_nan conv tb ts htb hts jr jc m0 m1 m2 b ⟨1, 2, by rw [hb]; rfl⟩, C158_sum_nan tb ts htb hts b ⟨1, 2, by rw [hb]; rfl⟩⟩
  rw [ha]
  split <;> simp

/-- Without overflow, sums of numbers are numbers. -/
private theorem mn_fin (tb : RTree (batchSize (stripeDim L r n) false)) (ts : RTree (stripeDim L r n + 1)) (htb : tb.Valid) (hts : ts.Valid)
    (m : Mat c Fx r n o L p) (hm : ∀ i j, ∃ x, m.get i j = .fin x) : ∃ z, Ie.matSum .fin tb ts m = .fin z := by
  refine forUp_inv (fun _ acc => ∃ z, acc = Fx.fin z) (Nat.zero_le _) ⟨0, rfl⟩ fun s acc _ ⟨z, e⟩ => ?_
  have hs : ∀ i, ∃ x, (m.stripes s).get i = .fin x := fun i => by
    cases L
    · exact hm s i
    · exact hm i s
  obtain ⟨k, t, b, e', -, hb, -⟩ := sum_lanes (fl := .fin) tb ts htb hts (m.stripes s)
  have : ∃ z, t.eval (Fx.add .fin) b = .fin z := by
    clear e'
    induction t with
    | leaf j => rcases hb j with h | ⟨i, h⟩
                · exact ⟨0, h⟩
                · obtain ⟨x, hx⟩ := hs i
                  exact ⟨x, h.trans hx⟩
    | node l r hl hr =>
      obtain ⟨x, hx⟩ := hl
      obtain ⟨y, hy⟩ := hr
      exact ⟨x + y, by rw [RTree.eval, hx, hy]; rfl⟩
  obtain ⟨y, hy⟩ := this
  exact ⟨z + y, by rw [e, e', hy]; rfl⟩

/-- The hypotheses hold: the finite norm of a matrix of ones; `Overflows` with a rounding that does overflow is shown beside C124. -/
example (c : Cfg) (L : Layout) (o : Order) (p conv : Bool) (tb : RTree (batchSize (stripeDim L 2 2) false)) (ts : RTree (stripeDim L 2 2 + 1)) (htb : tb.Valid)
    (hts : ts.Valid) (jr jc : Vec c Fx 2 p) (m0 : Mat c Fx 2 2 o L p) (m1 m2 : Mat c Fx 2 2 o L (p && p)) (m : Mat c Fx 2 2 o L p) (x : Mat c ℝ 2 2 o L p)
    (hm : ∀ i j, m.get i j = .fin (x.get i j)) (hx : ∀ i j, x.get i j = 1) : Ie.matNorm .fin conv tb ts jr jc m0 m1 m2 m = .fin 2 := by
  have hf : RoundsFx .fin := ⟨fun _ => by simp, rfl, fun x hx => by simpa [Fx.val] using hx⟩
  have hR : Rounding (fun x => x) 0 := by
    constructor <;> intros <;> simp
  have hs : Real.sqrt 4 = 2 := by rw [show (4 : ℝ) = 2 ^ 2 by norm_num]; exact Real.sqrt_sq (by norm_num)
  rcases C158_norm_nonneg hf conv tb ts htb hts jr jc m0 m1 m2 m (fun i j => by rw [hm]; simp) with e | ⟨z, -, e⟩
  · obtain ⟨z, hz⟩ := mn_fin tb ts htb hts _ fun i j => ⟨_, (mn_element (fl := .fin) conv jr jc m0 m1 m2 m i j).trans (by rw [hm]; rfl)⟩
    unfold Ie.matNorm Ie.matNormSquared at e
    rw [hz] at e
    unfold Fx.sqrt at e
    dsimp only at e
    split at e <;> simp at e
  · have := C158_norm_finite Overflows.id hR conv tb ts htb hts jr jc m0 m1 m2 m x hm z e
    simp only [hx] at this
    norm_num [hs] at this
    rw [e]
    congr 1
    linarith

end Mathter.Props
