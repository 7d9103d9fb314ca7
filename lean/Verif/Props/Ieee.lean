import Verif.Spec.Ieee
import Verif.Model.VectorMath
import Verif.Lemmas.Vector
import Mathlib.Data.Fin.VecNotation
import Mathlib.Tactic.FinCases
import Mathlib.Tactic.Linarith

/-!
# C92-C97: NaN and infinities
-/

namespace Mathter.Props
open Mathter
variable {c : Cfg} {dim : ℕ} {p p1 p2 : Bool} {fl : ℝ → Fx}

/-! ## Facts about the values -/

private theorem val_lt {a b : Fx} (ha : a ≠ .nan) (hb : b ≠ .nan) : Fx.lt a b = true ↔ a.val < b.val := by
  rcases a with _ | (_ | _) | x <;> rcases b with _ | (_ | _) | y <;> simp_all [Fx.lt, Fx.val]

private theorem lt_nan_right (a : Fx) : Fx.lt a .nan = false := by
  rcases a with _ | (_ | _) | x <;> rfl

private theorem lt_nan_left (a : Fx) : Fx.lt .nan a = false := by
  rcases a with _ | (_ | _) | x <;> rfl

private theorem add_nan (a : Fx) : Fx.add fl a .nan = .nan := by rcases a with _ | (_ | _) | x <;> rfl
private theorem nan_add (a : Fx) : Fx.add fl .nan a = .nan := by rcases a with _ | (_ | _) | x <;> rfl
private theorem mul_nan (a : Fx) : Fx.mul fl a .nan = .nan := by rcases a with _ | (_ | _) | x <;> rfl
private theorem nan_mul (a : Fx) : Fx.mul fl .nan a = .nan := by rcases a with _ | (_ | _) | x <;> rfl
private theorem div_nan (a : Fx) : Fx.div fl a .nan = .nan := by rcases a with _ | (_ | _) | x <;> rfl
private theorem nan_div (a : Fx) : Fx.div fl .nan a = .nan := by rcases a with _ | (_ | _) | x <;> rfl
private theorem sub_nan (a : Fx) : Fx.sub fl a .nan = .nan := add_nan a
private theorem nan_sub (a : Fx) : Fx.sub fl .nan a = .nan := nan_add _

private theorem eval_nan {n : ℕ} (b : Fin n → Fx) (t : RTree n) (i : Fin n) (hi : i ∈ t.leaves) (h : b i = .nan) : t.eval (Fx.add fl) b = .nan := by
  induction t with
  | leaf j => simp only [RTree.leaves, List.mem_singleton] at hi; subst hi; exact h
  | node l r hl hr =>
    simp only [RTree.leaves, List.mem_append] at hi
    rcases hi with hi | hi
    · rw [RTree.eval, hl hi, nan_add]
    · rw [RTree.eval, hr hi, add_nan]

private theorem mem_leaves' {n : ℕ} {t : RTree n} (h : t.Valid) (i : Fin n) : i ∈ t.leaves := h.mem_iff.2 (List.mem_finRange i)

private theorem leaves_length {n : ℕ} {t : RTree n} (h : t.Valid) : t.leaves.length = n := by rw [h.length_eq, List.length_finRange]

/-- Both branches of `Sum` as one reduction of lanes that are the elements, or zeros. -/
theorem sum_lanes (tb : RTree (batchSize dim false)) (ts : RTree (dim + 1)) (htb : tb.Valid) (hts : ts.Valid) (v : Vec c Fx dim p) :
    ∃ (n : ℕ) (t : RTree n) (b : Fin n → Fx), Ie.sum fl tb ts v = t.eval (Fx.add fl) b ∧ (∀ i, ∃ j ∈ t.leaves, b j = v.get i) ∧
      (∀ j, b j = .fin 0 ∨ ∃ i, b j = v.get i) ∧ (t.leaves.length = batchSize dim false ∨ t.leaves.length = dim + 1) := by
  unfold Ie.sum
  split
  · rename_i h
    refine ⟨_, tb, _, rfl, fun i => ⟨⟨i.val, Nat.lt_of_lt_of_le i.isLt (le_batchSize _ _)⟩, mem_leaves' htb _, ?_⟩, fun j => ?_, Or.inl (leaves_length htb)⟩
    · unfold Vec.fillMasked
      split
      · rfl
      · exact if_pos i.isLt
    · unfold Vec.fillMasked
      split
      · rename_i e; exact Or.inr ⟨⟨j.val, by have := j.isLt; omega⟩, rfl⟩
      · by_cases hj : j.val < dim
        · exact Or.inr ⟨⟨j.val, hj⟩, if_pos hj⟩
        · exact Or.inl (if_neg hj)
  · refine ⟨_, ts, _, rfl, fun i => ⟨i.castSucc, mem_leaves' hts _, ?_⟩, fun j => ?_, Or.inr (leaves_length hts)⟩
    · rw [dif_pos (by exact i.isLt)]; rfl
    · by_cases hj : j.val < dim
      · exact Or.inr ⟨⟨j.val, hj⟩, dif_pos hj⟩
      · exact Or.inl (dif_neg hj)

/-- The sum of zeros is zero. -/
theorem ie_sum_zero (hf : fl 0 = .fin 0) (tb : RTree (batchSize dim false)) (ts : RTree (dim + 1)) (htb : tb.Valid) (hts : ts.Valid) (v : Vec c Fx dim p)
    (h : ∀ i, v.get i = .fin 0) : Ie.sum fl tb ts v = .fin 0 := by
  obtain ⟨n, t, b, e, -, hb, -⟩ := sum_lanes (fl := fl) tb ts htb hts v
  rw [e]
  clear e
  induction t with
  | leaf j => rcases hb j with h' | ⟨i, h'⟩
              · exact h'
              · exact h'.trans (h i)
  | node l r hl hr => rw [RTree.eval, hl, hr, Fx.add, add_zero, hf]

/-! ## C92: NaN -/

/-- C92: the sum of a vector with a NaN element is NaN. -/
theorem C92_sum (tb : RTree (batchSize dim false)) (ts : RTree (dim + 1)) (htb : tb.Valid) (hts : ts.Valid) (v : Vec c Fx dim p)
    (h : ∃ i, v.get i = .nan) : Ie.sum fl tb ts v = .nan := by
  obtain ⟨n, t, b, e, hb, -, -⟩ := sum_lanes (fl := fl) tb ts htb hts v
  obtain ⟨i, hi⟩ := h
  obtain ⟨j, hj, ej⟩ := hb i
  rw [e, eval_nan b t j hj (ej.trans hi)]

/-- C92: the scalar product is NaN if an element of either operand is. -/
theorem C92_dot (conv : Bool) (tb : RTree (batchSize dim false)) (ts : RTree (dim + 1)) (htb : tb.Valid) (hts : ts.Valid) (a : Vec c Fx dim p1)
    (b : Vec c Fx dim p2) (h : ∃ i, a.get i = .nan ∨ b.get i = .nan) : Ie.dot fl conv tb ts a b = .nan := by
  refine C92_sum tb ts htb hts _ ?_
  obtain ⟨i, hi⟩ := h
  refine ⟨i, ?_⟩
  rw [Vec.get_doBinary]
  rcases hi with hi | hi <;> rw [hi]
  · exact nan_mul _
  · exact mul_nan _

/-- C92: so is the length, ... -/
theorem C92_length (conv : Bool) (tb : RTree (batchSize dim false)) (ts : RTree (dim + 1)) (htb : tb.Valid) (hts : ts.Valid) (v : Vec c Fx dim p)
    (h : ∃ i, v.get i = .nan) : Ie.length fl conv tb ts v = .nan := by
  unfold Ie.length
  rw [C92_dot conv tb ts htb hts v v (h.imp fun _ => Or.inl)]
  rfl

/-- ... the distance, ... -/
theorem C92_distance (conv : Bool) (tb : RTree (batchSize dim false)) (ts : RTree (dim + 1)) (htb : tb.Valid) (hts : ts.Valid) (a : Vec c Fx dim p1)
    (b : Vec c Fx dim p2) (h : ∃ i, a.get i = .nan ∨ b.get i = .nan) : Ie.distance fl conv tb ts a b = .nan := by
  refine C92_length conv tb ts htb hts _ ?_
  obtain ⟨i, hi⟩ := h
  refine ⟨i, ?_⟩
  rw [Vec.get_doBinary]
  rcases hi with hi | hi <;> rw [hi]
  · exact nan_sub _
  · exact sub_nan _

/-- Division by a scalar, element by element. -/
private theorem get_divs (conv : Bool) (v : Vec c Fx dim p) (s : Fx) (i : Fin dim) : (Ie.divScalar fl conv v s).get i = Fx.div fl (v.get i) s := by
  unfold Ie.divScalar
  rw [Vec.get_doBinary, Vec.get_fill]

/-- ... and the precise length, whatever `xsimd::max` returns for the NaN. -/
theorem C92_lengthPrecise (tiny Ω : ℝ) (hΩ : tiny ≤ Ω) (bmax : Fx → Fx → Fx) (conv : Bool) (tm tb : RTree (batchSize (dim + 1) false))
    (ts : RTree (dim + 1 + 1)) (htb : tb.Valid) (hts : ts.Valid) (v : Vec c Fx (dim + 1) p) (h : ∃ i, v.get i = .nan) :
    Ie.lengthPrecise fl tiny Ω bmax conv tm tb ts v = some .nan := by
  unfold Ie.lengthPrecise Fx.stdClamp
  have : Fx.lt (.fin Ω) (.fin tiny) = false := decide_eq_false (not_lt.2 hΩ)
  rw [this, if_neg (by simp), Option.map_some, C92_length conv tb ts htb hts _ (h.imp fun i hi => by rw [get_divs, hi, nan_div]), nan_mul]

/-- C92: `Normalize` of a vector with a NaN element has only NaN elements. -/
theorem C92_normalize (conv : Bool) (tb : RTree (batchSize dim false)) (ts : RTree (dim + 1)) (htb : tb.Valid) (hts : ts.Valid) (v : Vec c Fx dim p)
    (h : ∃ i, v.get i = .nan) : ∃ w, Ie.normalize fl conv tb ts v = some w ∧ ∀ i, w.get i = .nan := by
  unfold Ie.normalize
  simp only [C92_length conv tb ts htb hts v h]
  exact ⟨_, if_neg (by rw [show ((Fx.nan == Fx.fin 0) = false) from rfl]; simp), fun i => by rw [get_divs, div_nan]⟩

/-! ## C93: infinities -/

private theorem val_top {a : Fx} (h : a.val = ⊤) : a = .inf false := by
  rcases a with _ | (_ | _) | x <;> simp_all [Fx.val]

private theorem nn_cases {a : Fx} (h : a ≠ .nan) (h0 : 0 ≤ a.val) : a = .inf false ∨ ∃ x, 0 ≤ x ∧ a = .fin x := by
  rcases a with _ | (_ | _) | x
  · exact absurd rfl h
  · exact Or.inl rfl
  · simp [Fx.val] at h0
  · exact Or.inr ⟨x, by simpa [Fx.val] using h0, rfl⟩

private theorem nonneg_add (hf : RoundsFx fl) {a b : Fx} (ha : a ≠ .nan) (hb : b ≠ .nan) (ha0 : 0 ≤ a.val) (hb0 : 0 ≤ b.val) :
    Fx.add fl a b ≠ .nan ∧ 0 ≤ (Fx.add fl a b).val := by
  rcases nn_cases ha ha0 with rfl | ⟨x, hx, rfl⟩ <;> rcases nn_cases hb hb0 with rfl | ⟨y, hy, rfl⟩
  · simp [Fx.add, Fx.val]
  · simp [Fx.add, Fx.val]
  · simp [Fx.add, Fx.val]
  · exact ⟨hf.not_nan _, hf.nonneg _ (add_nonneg hx hy)⟩

private theorem eval_nonneg (hf : RoundsFx fl) {n : ℕ} (b : Fin n → Fx) (t : RTree n) (hb : ∀ j, b j ≠ .nan ∧ 0 ≤ (b j).val) :
    (t.eval (Fx.add fl) b ≠ .nan ∧ 0 ≤ (t.eval (Fx.add fl) b).val) ∧ ((∃ j ∈ t.leaves, b j = .inf false) → t.eval (Fx.add fl) b = .inf false) := by
  induction t with
  | leaf j => exact ⟨hb j, fun ⟨k, hk, e⟩ => by simp only [RTree.leaves, List.mem_singleton] at hk; subst hk; exact e⟩
  | node l r hl hr =>
    refine ⟨nonneg_add hf hl.1.1 hr.1.1 hl.1.2 hr.1.2, fun ⟨k, hk, e⟩ => ?_⟩
    simp only [RTree.leaves, List.mem_append] at hk
    rw [RTree.eval]
    rcases hk with hk | hk
    · rw [hl.2 ⟨k, hk, e⟩]
      rcases nn_cases hr.1.1 hr.1.2 with e' | ⟨y, -, e'⟩ <;> rw [e'] <;> rfl
    · rw [hr.2 ⟨k, hk, e⟩]
      rcases nn_cases hl.1.1 hl.1.2 with e' | ⟨y, -, e'⟩ <;> rw [e'] <;> rfl

private theorem sq_val (hf : RoundsFx fl) {a : Fx} (ha : a ≠ .nan) : (Fx.mul fl a a ≠ .nan ∧ 0 ≤ (Fx.mul fl a a).val) ∧
    ∀ s, a = .inf s → Fx.mul fl a a = .inf false := by
  rcases a with _ | (_ | _) | x
  · exact absurd rfl ha
  · simp [Fx.mul, Fx.val]
  · simp [Fx.mul, Fx.val]
  · exact ⟨⟨hf.not_nan _, hf.nonneg _ (mul_self_nonneg x)⟩, fun s h => by simp at h⟩

/-- Without NaN elements, the dot product of a vector with itself is positive infinity as soon as one square is. -/
theorem ie_dot_inf (hf : RoundsFx fl) (conv : Bool) (tb : RTree (batchSize dim false)) (ts : RTree (dim + 1)) (htb : tb.Valid) (hts : ts.Valid)
    (v : Vec c Fx dim p) (hn : ∀ i, v.get i ≠ .nan) (h : ∃ i, Fx.mul fl (v.get i) (v.get i) = .inf false) : Ie.dot fl conv tb ts v v = .inf false := by
  unfold Ie.dot
  obtain ⟨n, t, b, e, hb, hb', -⟩ := sum_lanes (fl := fl) tb ts htb hts (Vec.doBinary conv (Fx.mul fl) v v : Vec c Fx dim (p && p))
  simp only [Vec.get_doBinary] at hb hb'
  obtain ⟨i, hi⟩ := h
  obtain ⟨j, hj, ej⟩ := hb i
  rw [e, (eval_nonneg hf b t fun k => ?_).2 ⟨j, hj, ej.trans hi⟩]
  rcases hb' k with hk | ⟨m, hk⟩ <;> rw [hk]
  · simp [Fx.val]
  · exact (sq_val hf (hn m)).1

/-- C93: without NaN elements, the length of a vector with an infinite element is positive infinity, ... -/
theorem C93_length (hf : RoundsFx fl) (conv : Bool) (tb : RTree (batchSize dim false)) (ts : RTree (dim + 1)) (htb : tb.Valid) (hts : ts.Valid)
    (v : Vec c Fx dim p) (hn : ∀ i, v.get i ≠ .nan) (h : ∃ i s, v.get i = .inf s) : Ie.length fl conv tb ts v = .inf false := by
  unfold Ie.length Ie.dot
  obtain ⟨n, t, b, e, hb, hb', -⟩ := sum_lanes (fl := fl) tb ts htb hts (Vec.doBinary conv (Fx.mul fl) v v : Vec c Fx dim (p && p))
  simp only [Vec.get_doBinary] at hb hb'
  obtain ⟨i, s, hi⟩ := h
  obtain ⟨j, hj, ej⟩ := hb i
  rw [e, (eval_nonneg hf b t fun k => ?_).2 ⟨j, hj, ej.trans ((sq_val hf (hn i)).2 s hi)⟩]
  · rfl
  · rcases hb' k with hk | ⟨m, hk⟩ <;> rw [hk]
    · simp [Fx.val]
    · exact (sq_val hf (hn m)).1

/-- C93: ... and `Normalize` turns its finite elements into zeros and its infinite elements into NaNs. -/
theorem C93_normalize (hf : RoundsFx fl) (conv : Bool) (tb : RTree (batchSize dim false)) (ts : RTree (dim + 1)) (htb : tb.Valid) (hts : ts.Valid)
    (v : Vec c Fx dim p) (hn : ∀ i, v.get i ≠ .nan) (h : ∃ i s, v.get i = .inf s) :
    ∃ w, Ie.normalize fl conv tb ts v = some w ∧ ∀ i, ((∃ x, v.get i = .fin x) → w.get i = .fin 0) ∧ ((∃ s, v.get i = .inf s) → w.get i = .nan) := by
  unfold Ie.normalize
  simp only [C93_length hf conv tb ts htb hts v hn h]
  refine ⟨_, if_neg (by rw [show ((Fx.inf false == Fx.fin 0) = false) from rfl]; simp), fun i => ⟨?_, ?_⟩⟩
  · rintro ⟨x, e⟩
    rw [get_divs, e]; rfl
  · rintro ⟨s, e⟩
    rw [get_divs, e]; rfl

/-! ### Largest elements -/

private theorem eval_choice {b : Fx → Fx → Fx} (hb : ∀ x y, b x y = x ∨ b x y = y) {n : ℕ} (a : Fin n → Fx) (t : RTree n) : ∃ i, t.eval b a = a i := by
  induction t with
  | leaf i => exact ⟨i, rfl⟩
  | node l r hl hr =>
    rw [RTree.eval]
    rcases hb (l.eval b a) (r.eval b a) with h | h <;> rw [h]
    · exact hl
    · exact hr

private theorem eval_max {b : Fx → Fx → Fx} (hb : LaneMax b) {n : ℕ} (a : Fin n → Fx) (hn : ∀ i, a i ≠ .nan) (t : RTree n) :
    ∀ i ∈ t.leaves, (a i).val ≤ (t.eval b a).val := by
  induction t with
  | leaf j => intro i hi; simp only [RTree.leaves, List.mem_singleton] at hi; subst hi; exact le_refl _
  | node l r hl hr =>
    intro i hi
    simp only [RTree.leaves, List.mem_append] at hi
    obtain ⟨il, el⟩ := eval_choice hb.choice a l
    obtain ⟨ir, er⟩ := eval_choice hb.choice a r
    rw [RTree.eval, hb.max _ _ (el ▸ hn il) (er ▸ hn ir)]
    rcases hi with hi | hi
    · exact (hl i hi).trans (le_max_left _ _)
    · exact (hr i hi).trans (le_max_right _ _)

private theorem eval_min {b : Fx → Fx → Fx} (hb : LaneMin b) {n : ℕ} (a : Fin n → Fx) (hn : ∀ i, a i ≠ .nan) (t : RTree n) :
    ∀ i ∈ t.leaves, (t.eval b a).val ≤ (a i).val := by
  induction t with
  | leaf j => intro i hi; simp only [RTree.leaves, List.mem_singleton] at hi; subst hi; exact le_refl _
  | node l r hl hr =>
    intro i hi
    simp only [RTree.leaves, List.mem_append] at hi
    obtain ⟨il, el⟩ := eval_choice hb.choice a l
    obtain ⟨ir, er⟩ := eval_choice hb.choice a r
    rw [RTree.eval, hb.min _ _ (el ▸ hn il) (er ▸ hn ir)]
    rcases hi with hi | hi
    · exact (min_le_left _ _).trans (hl i hi)
    · exact (min_le_right _ _).trans (hr i hi)

private theorem maxElement_spec {n : ℕ} (a : Fin (n + 1) → Fx) (hn : ∀ i, a i ≠ .nan) (i : Fin (n + 1)) : (a i).val ≤ (Ie.maxElement a).val := by
  have := forUp_inv (n := n + 1) (lo := 1) (body := fun i largest => if Fx.lt (a largest) (a i) then i else largest) (s := (0 : Fin (n + 1)))
    (fun k largest => ∀ j : Fin (n + 1), j.val < k → (a j).val ≤ (a largest).val) (by omega)
    (fun j hj => by rw [show j = 0 from Fin.ext (by simpa using hj)]) (fun k largest _ ih j hj => by
      by_cases hlt : Fx.lt (a largest) (a k) = true
      · rw [if_pos hlt]
        have h1 := (val_lt (hn _) (hn _)).1 hlt
        rcases Nat.lt_succ_iff_lt_or_eq.1 hj with h | h
        · exact (ih j h).trans h1.le
        · rw [show j = k from Fin.ext h]
      · rw [if_neg hlt]
        have h1 := not_lt.1 fun h => hlt ((val_lt (hn _) (hn _)).2 h)
        rcases Nat.lt_succ_iff_lt_or_eq.1 hj with h | h
        · exact ih j h
        · rw [show j = k from Fin.ext h]; exact h1)
  exact this i i.isLt

private theorem minElement_spec {n : ℕ} (a : Fin (n + 1) → Fx) (hn : ∀ i, a i ≠ .nan) (i : Fin (n + 1)) : (Ie.minElement a).val ≤ (a i).val := by
  have := forUp_inv (n := n + 1) (lo := 1) (body := fun i smallest => if Fx.lt (a i) (a smallest) then i else smallest) (s := (0 : Fin (n + 1)))
    (fun k smallest => ∀ j : Fin (n + 1), j.val < k → (a smallest).val ≤ (a j).val) (by omega)
    (fun j hj => by rw [show j = 0 from Fin.ext (by simpa using hj)]) (fun k smallest _ ih j hj => by
      by_cases hlt : Fx.lt (a k) (a smallest) = true
      · rw [if_pos hlt]
        have h1 := (val_lt (hn _) (hn _)).1 hlt
        rcases Nat.lt_succ_iff_lt_or_eq.1 hj with h | h
        · exact h1.le.trans (ih j h)
        · rw [show j = k from Fin.ext h]
      · rw [if_neg hlt]
        have h1 := not_lt.1 fun h => hlt ((val_lt (hn _) (hn _)).2 h)
        rcases Nat.lt_succ_iff_lt_or_eq.1 hj with h | h
        · exact ih j h
        · rw [show j = k from Fin.ext h]; exact h1)
  exact this i i.isLt

private theorem filled (v : Vec c Fx (dim + 1) p) (h : isBatched c (dim + 1) p = true) (l : Fin (batchSize (dim + 1) false)) :
    ∃ i : Fin (dim + 1), Vec.fillMaskedWithFirst (dim + 1) (v.load h) l = v.get i := by
  unfold Vec.fillMaskedWithFirst
  split
  · rename_i hl; exact ⟨⟨l.val, hl⟩, rfl⟩
  · exact ⟨⟨0, Nat.succ_pos _⟩, rfl⟩

private theorem filled_of_lt (v : Vec c Fx (dim + 1) p) (h : isBatched c (dim + 1) p = true) (i : Fin (dim + 1)) :
    Vec.fillMaskedWithFirst (dim + 1) (v.load h) ⟨i.val, Nat.lt_of_lt_of_le i.isLt (le_batchSize _ _)⟩ = v.get i := by
  unfold Vec.fillMaskedWithFirst
  rw [if_pos i.isLt]
  rfl

/-- C95: `Max(v)` is an element of `v`, also if elements are NaN; without NaN it is the largest. -/
theorem C95_max_partial (bmax : Fx → Fx → Fx) (hm : LaneMax bmax) (tm : RTree (batchSize (dim + 1) false)) (htm : tm.Valid) (v : Vec c Fx (dim + 1) p) :
    (∃ i, Ie.maxElem bmax tm v = v.get i) ∧ ((∀ i, v.get i ≠ .nan) → ∀ i, (v.get i).val ≤ (Ie.maxElem bmax tm v).val) := by
  unfold Ie.maxElem
  split
  · rename_i h
    constructor
    · obtain ⟨l, e⟩ := eval_choice hm.choice (Vec.fillMaskedWithFirst (dim + 1) (v.load h)) tm
      rw [e]; exact filled v h l
    · intro hn i
      have := eval_max hm (Vec.fillMaskedWithFirst (dim + 1) (v.load h)) (fun l => by obtain ⟨j, e⟩ := filled v h l; rw [e]; exact hn j) tm
        ⟨i.val, Nat.lt_of_lt_of_le i.isLt (le_batchSize _ _)⟩ (mem_leaves' htm _)
      rwa [filled_of_lt] at this
  · exact ⟨⟨_, rfl⟩, fun hn i => maxElement_spec v.get hn i⟩

/-- C95: the same for `Min(v)`. -/
theorem C95_min_partial (bmin : Fx → Fx → Fx) (hm : LaneMin bmin) (tm : RTree (batchSize (dim + 1) false)) (htm : tm.Valid) (v : Vec c Fx (dim + 1) p) :
    (∃ i, Ie.minElem bmin tm v = v.get i) ∧ ((∀ i, v.get i ≠ .nan) → ∀ i, (Ie.minElem bmin tm v).val ≤ (v.get i).val) := by
  unfold Ie.minElem
  split
  · rename_i h
    constructor
    · obtain ⟨l, e⟩ := eval_choice hm.choice (Vec.fillMaskedWithFirst (dim + 1) (v.load h)) tm
      rw [e]; exact filled v h l
    · intro hn i
      have := eval_min hm (Vec.fillMaskedWithFirst (dim + 1) (v.load h)) (fun l => by obtain ⟨j, e⟩ := filled v h l; rw [e]; exact hn j) tm
        ⟨i.val, Nat.lt_of_lt_of_le i.isLt (le_batchSize _ _)⟩ (mem_leaves' htm _)
      rwa [filled_of_lt] at this
  · exact ⟨⟨_, rfl⟩, fun hn i => minElement_spec v.get hn i⟩

private theorem abs_ne_nan {a : Fx} (h : a ≠ .nan) : a.abs ≠ .nan := by rcases a with _ | (_ | _) | x <;> simp_all [Fx.abs]

/-- Without NaN, the scale of a vector with an infinite element is infinite. -/
private theorem scale_inf (bmax : Fx → Fx → Fx) (hm : LaneMax bmax) (conv : Bool) (tm : RTree (batchSize (dim + 1) false)) (htm : tm.Valid)
    (v : Vec c Fx (dim + 1) p) (hn : ∀ i, v.get i ≠ .nan) (h : ∃ i s, v.get i = .inf s) : Ie.scaleElements bmax conv tm v = .inf false := by
  unfold Ie.scaleElements
  obtain ⟨-, h2⟩ := C95_max_partial bmax hm tm htm (Vec.doUnary conv Fx.abs v : Vec c Fx (dim + 1) p)
  simp only [Vec.get_doUnary] at h2
  obtain ⟨i, s, hi⟩ := h
  have := h2 (fun i => abs_ne_nan (hn i)) i
  rw [hi] at this
  exact val_top (top_le_iff.1 this)

/-- C93: ... and so is the precise length. -/
theorem C93_lengthPrecise (hf : RoundsFx fl) (tiny Ω : ℝ) (h0 : 0 < tiny) (hΩ : tiny ≤ Ω) (bmax : Fx → Fx → Fx) (hm : LaneMax bmax) (conv : Bool)
    (tm tb : RTree (batchSize (dim + 1) false)) (ts : RTree (dim + 1 + 1)) (htm : tm.Valid) (htb : tb.Valid) (hts : ts.Valid)
    (v : Vec c Fx (dim + 1) p) (hn : ∀ i, v.get i ≠ .nan) (h : ∃ i s, v.get i = .inf s) :
    Ie.lengthPrecise fl tiny Ω bmax conv tm tb ts v = some (.inf false) := by
  unfold Ie.lengthPrecise Fx.stdClamp
  have e1 : Fx.lt (.fin Ω) (.fin tiny) = false := decide_eq_false (not_lt.2 hΩ)
  have hΩ0 : 0 < Ω := lt_of_lt_of_le h0 hΩ
  rw [e1, scale_inf bmax hm conv tm htm v hn h, if_neg (by simp), show Fx.lt (.inf false) (.fin tiny) = false from rfl, if_neg (by simp),
    show Fx.lt (.fin Ω) (.inf false) = true from rfl, if_pos rfl, Option.map_some, C93_length hf conv tb ts htb hts _ (fun i => ?_) ?_]
  · rw [Fx.mul, if_neg hΩ0.ne', decide_eq_false (not_lt.2 hΩ0.le)]; rfl
  · obtain ⟨i, s, hi⟩ := h
    exact ⟨i, _, by rw [get_divs, hi]; rfl⟩
  · rw [get_divs]
    cases hi : v.get i with
    | nan => exact absurd hi (hn i)
    | inf s => simp [Fx.div]
    | fin x => rw [Fx.div, if_neg hΩ0.ne']; exact hf.not_nan _

/-! ## C94: `NormalizePrecise` -/

/-- C94: the null vector gives the fallback. -/
theorem C94_null (bmax : Fx → Fx → Fx) (hm : LaneMax bmax) (conv : Bool) (tm tb : RTree (batchSize (dim + 1) false))
    (ts : RTree (dim + 1 + 1)) (htm : tm.Valid) (htb : tb.Valid) (hts : ts.Valid) (v degenerate : Vec c Fx (dim + 1) p) (h : ∀ i, v.get i = .fin 0) :
    Ie.normalizePrecise fl bmax conv tm tb ts v degenerate = degenerate.get := by
  unfold Ie.normalizePrecise
  have e : Ie.scaleElements bmax conv tm v = .fin 0 := by
    obtain ⟨⟨i, e⟩, -⟩ := C95_max_partial bmax hm tm htm (Vec.doUnary conv Fx.abs v : Vec c Fx (dim + 1) p)
    unfold Ie.scaleElements
    rw [e, Vec.get_doUnary, h]
    simp [Fx.abs]
  simp only
  rw [e, C92_length conv tb ts htb hts _ ⟨0, by rw [get_divs, h]; simp [Fx.div]⟩]
  simp [Fx.isFinite]

private theorem fin_of_between {a : Fx} (h : a ≠ .nan) {l u : ℝ} (hl : (l : EReal) ≤ a.val) (hu : a.val ≤ (u : EReal)) : ∃ y, a = .fin y ∧ l ≤ y ∧ y ≤ u := by
  rcases a with _ | (_ | _) | x
  · exact absurd rfl h
  · simp [Fx.val] at hu
  · simp [Fx.val] at hl
  · exact ⟨x, rfl, by simpa [Fx.val] using hl, by simpa [Fx.val] using hu⟩

theorem fl_between {N : ℕ} (hf : RoundsMonoFx N fl) {l u z : ℝ} (hl : fl l = .fin l) (hu : fl u = .fin u) (h1 : l ≤ z) (h2 : z ≤ u) :
    ∃ y, fl z = .fin y ∧ l ≤ y ∧ y ≤ u := by
  refine fin_of_between (hf.not_nan z) ?_ ?_
  · have := hf.mono _ _ h1; rw [hl] at this; exact this
  · have := hf.mono _ _ h2; rw [hu] at this; exact this

/-- A sum of numbers from 0 to 1 is finite, at most the number of terms, and at least 1 if a term is 1. -/
private theorem eval_bounded {N : ℕ} (hf : RoundsMonoFx N fl) {n : ℕ} (b : Fin n → Fx) (t : RTree n) (hN : t.leaves.length ≤ N)
    (hb : ∀ j, ∃ y, b j = .fin y ∧ 0 ≤ y ∧ y ≤ 1) :
    ∃ y, t.eval (Fx.add fl) b = .fin y ∧ 0 ≤ y ∧ y ≤ t.leaves.length ∧ ((∃ j ∈ t.leaves, b j = .fin 1) → 1 ≤ y) := by
  induction t with
  | leaf j =>
    obtain ⟨y, e, h0, h1⟩ := hb j
    refine ⟨y, e, h0, by simpa [RTree.leaves] using h1, fun ⟨k, hk, ek⟩ => ?_⟩
    simp only [RTree.leaves, List.mem_singleton] at hk
    subst hk
    rw [e] at ek
    exact (Fx.fin.inj ek).ge
  | node l r hl hr =>
    rw [RTree.leaves, List.length_append] at hN
    obtain ⟨y, ey, y0, y1, y2⟩ := hl (by omega)
    obtain ⟨z, ez, z0, z1, z2⟩ := hr (by omega)
    have e0 : fl 0 = .fin 0 := hf.zero
    have eN := hf.nat (l.leaves.length + r.leaves.length) hN
    push_cast at eN
    rw [RTree.eval, ey, ez, Fx.add]
    obtain ⟨w, ew, w0, w1⟩ := fl_between hf e0 eN (add_nonneg y0 z0) (add_le_add y1 z1)
    refine ⟨w, ew, w0, by rw [RTree.leaves, List.length_append]; push_cast; exact w1, fun ⟨k, hk, ek⟩ => ?_⟩
    have h1 : (1 : ℝ) ≤ y + z := by
      rw [RTree.leaves, List.mem_append] at hk
      rcases hk with hk | hk
      · linarith [y2 ⟨k, hk, ek⟩]
      · linarith [z2 ⟨k, hk, ek⟩]
    have hN1 : 1 ≤ N := by
      have : 0 < (RTree.node l r).leaves.length := List.length_pos_of_mem hk
      rw [RTree.leaves, List.length_append] at this
      omega
    have e1 : fl 1 = .fin 1 := by have := hf.nat 1 hN1; push_cast at this; exact this
    have := hf.mono _ _ h1
    rw [e1, ew] at this
    exact EReal.coe_le_coe_iff.1 this

/-- How `NormalizePrecise` treats a finite vector other than the null vector. -/
theorem normalizePrecise_steps {N : ℕ} (hf : RoundsMonoFx N fl) (bmax : Fx → Fx → Fx) (hm : LaneMax bmax) (conv : Bool)
    (tm tb : RTree (batchSize (dim + 1) false)) (ts : RTree (dim + 1 + 1)) (htm : tm.Valid) (htb : tb.Valid) (hts : ts.Valid)
    (hN : batchSize (dim + 1) false ≤ N ∧ dim + 2 ≤ N) (v degenerate : Vec c Fx (dim + 1) p) (x : Fin (dim + 1) → ℝ) (hx : ∀ i, v.get i = .fin (x i))
    (h0 : ∃ i, x i ≠ 0) :
    ∃ S l : ℝ, (∀ i, |x i| ≤ S) ∧ (∃ i, |x i| = S) ∧ 1 ≤ l ∧ l ≤ N ∧ Ie.scaleElements bmax conv tm v = .fin S ∧
      Ie.length fl conv tb ts (Ie.divScalar fl conv v (.fin S)) = .fin l ∧
      ∀ i, ∃ y, fl (x i / S) = .fin y ∧ -1 ≤ y ∧ y ≤ 1 ∧ Ie.normalizePrecise fl bmax conv tm tb ts v degenerate i = fl (y / l) := by
  have hN1 : 1 ≤ N := by omega
  have e1 : fl 1 = .fin 1 := by have := hf.nat 1 hN1; push_cast at this; exact this
  have e0 : fl 0 = .fin 0 := hf.zero
  obtain ⟨⟨i1, es⟩, hle⟩ := C95_max_partial bmax hm tm htm (Vec.doUnary conv Fx.abs v : Vec c Fx (dim + 1) p)
  simp only [Vec.get_doUnary, hx, Fx.abs] at es hle
  have hle' : ∀ i, |x i| ≤ |x i1| := fun i => by
    have := hle (fun i => by simp) i
    rw [es] at this
    simpa [Fx.val] using this
  obtain ⟨S, hS⟩ : ∃ S, S = |x i1| := ⟨_, rfl⟩
  have hscale : Ie.scaleElements bmax conv tm v = .fin S := by unfold Ie.scaleElements; rw [es, hS]
  rw [← hS] at hle'
  have hS0 : 0 < S := by
    obtain ⟨i, hi⟩ := h0
    exact lt_of_lt_of_le (abs_pos.2 hi) (hle' i)
  have hy : ∀ i, ∃ y, fl (x i / S) = .fin y ∧ -1 ≤ y ∧ y ≤ 1 := fun i => by
    refine fl_between hf hf.neg_one e1 ?_ ?_
    · rw [le_div_iff₀ hS0]; linarith [(abs_le.1 (hle' i)).1]
    · rw [div_le_one hS0]; exact (abs_le.1 (hle' i)).2
  choose y ey y1 y2 using hy
  have hw : ∀ i, (Ie.divScalar fl conv v (.fin S)).get i = .fin (y i) := fun i => by
    rw [get_divs, hx, Fx.div, if_neg hS0.ne', ey]
  have hy1 : y i1 * y i1 = 1 := by
    have hc : x i1 / S = 1 ∨ x i1 / S = -1 := by
      rcases abs_choice (x i1) with h | h
      · left; rw [hS, h]; exact div_self (by rw [← h, ← hS]; exact hS0.ne')
      · right; rw [hS, h, div_neg, div_self]; intro h'; rw [h', abs_zero] at hS; exact hS0.ne' hS
    have := ey i1
    rcases hc with h | h <;> rw [h] at this
    · rw [e1] at this; rw [← Fx.fin.inj this]; ring
    · rw [hf.neg_one] at this; rw [← Fx.fin.inj this]; ring
  obtain ⟨n, t, b, e, hb, hb', hn⟩ : ∃ (n : ℕ) (t : RTree n) (b : Fin n → Fx),
      Ie.dot fl conv tb ts (Ie.divScalar fl conv v (.fin S)) (Ie.divScalar fl conv v (.fin S)) = t.eval (Fx.add fl) b ∧
      (∀ i, ∃ j ∈ t.leaves, b j = fl (y i * y i)) ∧ (∀ j, b j = .fin 0 ∨ ∃ i, b j = fl (y i * y i)) ∧ t.leaves.length ≤ N := by
    unfold Ie.dot
    obtain ⟨n, t, b, e, hb, hb', hl⟩ := sum_lanes (fl := fl) tb ts htb hts
      (Vec.doBinary conv (Fx.mul fl) (Ie.divScalar fl conv v (.fin S)) (Ie.divScalar fl conv v (.fin S)) : Vec c Fx (dim + 1) _)
    simp only [Vec.get_doBinary, hw, Fx.mul] at hb hb'
    exact ⟨n, t, b, e, hb, hb', by omega⟩
  have hsq : ∀ i, ∃ z, fl (y i * y i) = .fin z ∧ 0 ≤ z ∧ z ≤ 1 := fun i =>
    fl_between hf e0 e1 (mul_self_nonneg _) (by nlinarith [y1 i, y2 i])
  obtain ⟨z, ez, z0, zN, z1⟩ := eval_bounded hf b t hn fun j => by
    rcases hb' j with h | ⟨i, h⟩ <;> rw [h]
    · exact ⟨0, rfl, le_refl _, zero_le_one⟩
    · exact hsq i
  have z1' : 1 ≤ z := z1 (by
    obtain ⟨j, hj, ej⟩ := hb i1
    exact ⟨j, hj, by rw [ej, hy1, e1]⟩)
  have eNN := hf.nat N le_rfl
  obtain ⟨l, el, l1, l2⟩ := fl_between hf e1 eNN (Real.one_le_sqrt.2 z1') (by
    have : Real.sqrt z ≤ z := by rw [Real.sqrt_le_left (by linarith)]; nlinarith
    have h2 : (t.leaves.length : ℝ) ≤ N := by exact_mod_cast hn
    linarith)
  have hlen : Ie.length fl conv tb ts (Ie.divScalar fl conv v (.fin S)) = .fin l := by
    unfold Ie.length
    rw [e, ez, Fx.sqrt, if_neg (not_lt.2 z0), el]
  refine ⟨S, l, hle', ⟨i1, hS.symm⟩, l1, l2, hscale, hlen, fun i => ⟨y i, ey i, y1 i, y2 i, ?_⟩⟩
  unfold Ie.normalizePrecise
  simp only [hscale, hlen]
  have hl0 : l ≠ 0 := by intro h; rw [h] at l1; linarith
  rw [if_pos (by simp [Fx.isFinite, BEq.beq, hl0]), get_divs, hw, Fx.div, if_neg hl0]

/-- C94: for a finite vector other than the null vector, `NormalizePrecise` does not use the fallback: the elements are divided by the largest absolute
value and the result by its length, which is a number between 1 and the number of lanes. -/
theorem C94_finite_partial {N : ℕ} (hf : RoundsMonoFx N fl) (bmax : Fx → Fx → Fx) (hm : LaneMax bmax) (conv : Bool)
    (tm tb : RTree (batchSize (dim + 1) false)) (ts : RTree (dim + 1 + 1)) (htm : tm.Valid) (htb : tb.Valid) (hts : ts.Valid)
    (hN : batchSize (dim + 1) false ≤ N ∧ dim + 2 ≤ N) (v degenerate : Vec c Fx (dim + 1) p) (x : Fin (dim + 1) → ℝ) (hx : ∀ i, v.get i = .fin (x i))
    (h0 : ∃ i, x i ≠ 0) :
    ∃ S l : ℝ, (∀ i, |x i| ≤ S) ∧ (∃ i, |x i| = S) ∧ 1 ≤ l ∧ l ≤ N ∧
      ∀ i, ∃ y, fl (x i / S) = .fin y ∧ Ie.normalizePrecise fl bmax conv tm tb ts v degenerate i = fl (y / l) := by
  obtain ⟨S, l, h1, h2, h3, h4, -, -, h5⟩ := normalizePrecise_steps hf bmax hm conv tm tb ts htm htb hts hN v degenerate x hx h0
  exact ⟨S, l, h1, h2, h3, h4, fun i => by obtain ⟨y, e, -, -, e'⟩ := h5 i; exact ⟨y, e, e'⟩⟩

/-- C94: the claim that only null vectors give the fallback is false: every vector with a NaN or infinite element does, so that NaN is replaced by a unit
vector without notice. -/
theorem C94_violated (bmax : Fx → Fx → Fx) (hm : LaneMax bmax) (conv : Bool) (tm tb : RTree (batchSize (dim + 1) false)) (ts : RTree (dim + 1 + 1))
    (htm : tm.Valid) (htb : tb.Valid) (hts : ts.Valid) (v degenerate : Vec c Fx (dim + 1) p) (h : ∃ i, ∀ x, v.get i ≠ .fin x) :
    Ie.normalizePrecise fl bmax conv tm tb ts v degenerate = degenerate.get := by
  unfold Ie.normalizePrecise
  simp only
  rw [C92_length conv tb ts htb hts]
  · simp [Fx.isFinite]
  · by_cases hn : ∀ i, v.get i ≠ .nan
    · obtain ⟨i, hi⟩ := h
      cases e : v.get i with
      | nan => exact absurd e (hn i)
      | inf s => exact ⟨i, by rw [scale_inf bmax hm conv tm htm v hn ⟨i, s, e⟩, get_divs, e]; rfl⟩
      | fin x => exact absurd e (hi x)
    · push Not at hn
      obtain ⟨i, hi⟩ := hn
      exact ⟨i, by rw [get_divs, hi, nan_div]⟩

/-! ## C95: `Min`, `Max`, `Clamp` -/

private theorem get_binary (fb fs : Fx → Fx → Fx) (conv : Bool) (a : Vec c Fx dim p1) (b : Vec c Fx dim p2) (i : Fin dim) :
    (Ie.binary fb fs conv a b).get i = fb (a.get i) (b.get i) ∨ (Ie.binary fb fs conv a b).get i = fs (a.get i) (b.get i) := by
  unfold Ie.binary
  split
  · exact Or.inl rfl
  · exact Or.inr (by rw [Vec.get_ofFn])

theorem stdMax_lane : LaneMax Fx.stdMax where
  choice x y := by unfold Fx.stdMax; split <;> simp
  max x y hx hy := by
    unfold Fx.stdMax
    split
    · rename_i h; exact (max_eq_right ((val_lt hx hy).1 h).le).symm
    · rename_i h; exact (max_eq_left (not_lt.1 fun h' => h ((val_lt hx hy).2 h'))).symm

private theorem stdMin_lane : LaneMin Fx.stdMin where
  choice x y := by unfold Fx.stdMin; split <;> simp
  min x y hx hy := by
    unfold Fx.stdMin
    split
    · rename_i h; exact (min_eq_right ((val_lt hy hx).1 h).le).symm
    · rename_i h; exact (min_eq_left (not_lt.1 fun h' => h ((val_lt hy hx).2 h'))).symm

/-- C95: elements of `Max(a, b)` and `Min(a, b)` are elements of an operand, and the larger or smaller one if neither is NaN. -/
theorem C95_elementwise_partial (bmin bmax : Fx → Fx → Fx) (hl : LaneMin bmin) (hm : LaneMax bmax) (conv : Bool) (a : Vec c Fx dim p1) (b : Vec c Fx dim p2)
    (i : Fin dim) :
    ((Ie.maxVec bmax conv a b).get i = a.get i ∨ (Ie.maxVec bmax conv a b).get i = b.get i) ∧
    ((Ie.minVec bmin conv a b).get i = a.get i ∨ (Ie.minVec bmin conv a b).get i = b.get i) ∧
    (a.get i ≠ .nan → b.get i ≠ .nan → ((Ie.maxVec bmax conv a b).get i).val = max (a.get i).val (b.get i).val ∧
      ((Ie.minVec bmin conv a b).get i).val = min (a.get i).val (b.get i).val) := by
  unfold Ie.maxVec Ie.minVec
  refine ⟨?_, ?_, fun ha hb => ⟨?_, ?_⟩⟩
  · rcases get_binary bmax Fx.stdMax conv a b i with h | h <;> rw [h]
    · exact hm.choice _ _
    · exact stdMax_lane.choice _ _
  · rcases get_binary bmin Fx.stdMin conv a b i with h | h <;> rw [h]
    · exact hl.choice _ _
    · exact stdMin_lane.choice _ _
  · rcases get_binary bmax Fx.stdMax conv a b i with h | h <;> rw [h]
    · exact hm.max _ _ ha hb
    · exact stdMax_lane.max _ _ ha hb
  · rcases get_binary bmin Fx.stdMin conv a b i with h | h <;> rw [h]
    · exact hl.min _ _ ha hb
    · exact stdMin_lane.min _ _ ha hb

/-- C95: `Clamp` brings every element that is not NaN into the interval, infinite elements included. -/
theorem C95_clamp_partial (bmin bmax : Fx → Fx → Fx) (hl : LaneMin bmin) (hm : LaneMax bmax) (conv : Bool) (v : Vec c Fx dim p) (lo hi : Fx)
    (hlo : lo ≠ .nan) (hhi : hi ≠ .nan) (i : Fin dim) (hv : v.get i ≠ .nan) :
    ((Ie.clamp bmin bmax conv v lo hi).get i).val = min (max (v.get i).val lo.val) hi.val := by
  unfold Ie.clamp
  have h1 := C95_elementwise_partial bmin bmax hl hm conv v (Vec.fill lo : Vec c Fx dim p) i
  rw [Vec.get_fill] at h1
  have hne : (Ie.maxVec bmax conv v (Vec.fill lo : Vec c Fx dim p)).get i ≠ .nan := by
    rcases h1.1 with h | h <;> rw [h] <;> assumption
  have h2 := (C95_elementwise_partial bmin bmax hl hm conv (Ie.maxVec bmax conv v (Vec.fill lo : Vec c Fx dim p)) (Vec.fill hi : Vec c Fx dim p) i).2.2 hne
  rw [Vec.get_fill] at h2
  rw [(h2 hhi).2, (h1.2.2 hv hlo).1]

/-- C95: the scalar `Clamp` and `Saturate` of `Utility.hpp` keep NaN. -/
theorem C95_scalar_clamp (x lo hi : Fx) (h : lo.val ≤ hi.val) (hlo : lo ≠ .nan) (hhi : hi ≠ .nan) :
    Fx.stdClamp .nan lo hi = some .nan ∧ Fx.saturate .nan = some .nan ∧
      (x ≠ .nan → ∃ y, Fx.stdClamp x lo hi = some y ∧ y ≠ .nan ∧ y.val = min (max x.val lo.val) hi.val) := by
  have e : Fx.lt hi lo = false := by
    rw [Bool.eq_false_iff]; exact fun h' => absurd ((val_lt hhi hlo).1 h') (not_lt.2 h)
  refine ⟨?_, ?_, fun hx => ?_⟩
  · unfold Fx.stdClamp
    rw [e, lt_nan_left, lt_nan_right]; simp
  · unfold Fx.saturate Fx.stdClamp
    simp [Fx.lt]
  · unfold Fx.stdClamp
    rw [e, if_neg (by simp)]
    refine ⟨_, rfl, ?_, ?_⟩
    · split
      · exact hlo
      · split <;> assumption
    · split
      · rename_i h1
        rw [max_eq_right ((val_lt hx hlo).1 h1).le, min_eq_left h]
      · rename_i h1
        have h1' := not_lt.1 fun h' => h1 ((val_lt hx hlo).2 h')
        rw [max_eq_left h1']
        split
        · rename_i h2; exact (min_eq_right ((val_lt hhi hx).1 h2).le).symm
        · rename_i h2; exact (min_eq_left (not_lt.1 fun h' => h2 ((val_lt hhi hx).2 h'))).symm

/-- C95: `Saturate` brings every number and infinity into `[0, 1]`. -/
theorem C95_saturate (x : Fx) (hx : x ≠ .nan) : ∃ y, Fx.saturate x = some (.fin y) ∧ (y : EReal) = min (max x.val 0) 1 := by
  obtain ⟨z, h1, h2, h3⟩ := (C95_scalar_clamp x (.fin 0) (.fin 1) (by simp [Fx.val]) (by simp) (by simp)).2.2 hx
  have h4 : z.val = min (max x.val 0) 1 := by rw [h3]; simp [Fx.val]
  have hb : (0 : EReal) ≤ z.val ∧ z.val ≤ 1 := by
    rw [h4]; exact ⟨le_min (le_max_right _ _) zero_le_one, min_le_right _ _⟩
  cases z with
  | nan => exact absurd rfl h2
  | inf s =>
    cases s
    · exact absurd hb.2 (not_le.2 (EReal.coe_lt_top 1))
    · exact absurd hb.1 (not_le.2 (EReal.bot_lt_coe 0))
  | fin y => exact ⟨y, h1, h4⟩

/-- C95: the largest element depends on the order of the elements if one is NaN: without SIMD `Max` of `(NaN, 1)` is NaN, of `(1, NaN)` it is 1. -/
theorem C95_order_violated : ∃ a b : Vec Cfg.scalar Fx 2 false, (∀ i, a.get i = b.get (1 - i)) ∧
    ∀ bmax tm, Ie.maxElem bmax tm a = .nan ∧ Ie.maxElem bmax tm b = .fin 1 := by
  refine ⟨Vec.ofFn ![.nan, .fin 1], Vec.ofFn ![.fin 1, .nan], fun i => ?_, fun bmax tm => ?_⟩
  · fin_cases i <;> rfl
  · have hb : isBatched Cfg.scalar (1 + 1) false = false := rfl
    constructor
    · unfold Ie.maxElem
      rw [dif_neg (by rw [hb]; simp)]
      rfl
    · unfold Ie.maxElem
      rw [dif_neg (by rw [hb]; simp)]
      rfl

/-- `_mm_max_ps(x, y)`: the second operand if one is NaN. -/
noncomputable def sseMax (x y : Fx) : Fx := if Fx.lt y x then x else y

/-- `_mm_min_ps(x, y)`: the second operand if one is NaN. -/
noncomputable def sseMin (x y : Fx) : Fx := if Fx.lt x y then x else y

private theorem sseMax_lane : LaneMax sseMax where
  choice x y := by unfold sseMax; split <;> simp
  max x y hx hy := by
    unfold sseMax
    split
    · rename_i h; exact (max_eq_left ((val_lt hy hx).1 h).le).symm
    · rename_i h; exact (max_eq_right (not_lt.1 fun h' => h ((val_lt hy hx).2 h'))).symm

private theorem sseMin_lane : LaneMin sseMin where
  choice x y := by unfold sseMin; split <;> simp
  min x y hx hy := by
    unfold sseMin
    split
    · rename_i h; exact (min_eq_left ((val_lt hx hy).1 h).le).symm
    · rename_i h; exact (min_eq_right (not_lt.1 fun h' => h ((val_lt hx hy).2 h'))).symm

/-- C95: `Clamp` of NaN is NaN without SIMD, but the lower limit with an SSE-like `xsimd::max` (which satisfies the assumptions). -/
theorem C95_clamp_violated : LaneMin sseMin ∧ LaneMax sseMax ∧ ∀ (i : Fin 4),
    (Ie.clamp sseMin sseMax true (Vec.fill .nan : Vec Cfg.sse Fx 4 false) (.fin 0) (.fin 1)).get i = .fin 0 ∧
    (Ie.clamp sseMin sseMax true (Vec.fill .nan : Vec Cfg.scalar Fx 4 false) (.fin 0) (.fin 1)).get i = .nan := by
  refine ⟨sseMin_lane, sseMax_lane, fun i => ⟨?_, ?_⟩⟩
  · have e : (Ie.clamp sseMin sseMax true (Vec.fill .nan : Vec Cfg.sse Fx 4 false) (.fin 0) (.fin 1)).get i = sseMin (sseMax .nan (.fin 0)) (.fin 1) := rfl
    rw [e]
    simp [sseMin, sseMax, Fx.lt]
  · have e : (Ie.clamp sseMin sseMax true (Vec.fill .nan : Vec Cfg.scalar Fx 4 false) (.fin 0) (.fin 1)).get i =
        Fx.stdMin (Fx.stdMax .nan (.fin 0)) (.fin 1) := by
      have hb : isBatched Cfg.scalar 4 false = false := rfl
      unfold Ie.clamp Ie.minVec Ie.maxVec Ie.binary
      simp [hb, Vec.get_ofFn, Vec.get_fill]
    rw [e]
    rfl

/-! ## C96: comparison -/

/-- C96: a vector equals another exactly if no element is NaN and corresponding elements are the same; in particular it differs from itself exactly if
an element is NaN. -/
theorem C96_eq (a : Vec c Fx dim p1) (b : Vec c Fx dim p2) :
    (Vec.eq a b = true ↔ ∀ i, a.get i ≠ .nan ∧ a.get i = b.get i) ∧ (Vec.ne a b = true ↔ ∃ i, a.get i = .nan ∨ a.get i ≠ b.get i) := by
  have key : ∀ x y : Fx, (x == y) = true ↔ x ≠ .nan ∧ x = y := by
    intro x y
    rcases x with _ | s | x <;> rcases y with _ | t | y <;> simp [BEq.beq]
  have h1 : Vec.eq a b = true ↔ ∀ i, a.get i ≠ .nan ∧ a.get i = b.get i := by
    unfold Vec.eq
    simp [List.all_eq_true, key]
  refine ⟨h1, ?_⟩
  unfold Vec.ne
  rw [Bool.not_eq_true', ← Bool.not_eq_true, h1]
  push Not
  exact exists_congr fun i => by rw [← or_iff_not_imp_left]

/-! ## C97: the compensated sum -/

private theorem compStep_nan (x : Fx) (s : Fx × Fx) (h : s.2 = .nan) : (Ie.compStep fl x s).2 = .nan := by
  unfold Ie.compStep
  simp only
  split <;> rw [h, nan_add]

private theorem compStep_bad (x : Fx) (hx : ∀ y, x ≠ .fin y) (s : Fx × Fx) : (Ie.compStep fl x s).2 = .nan := by
  obtain ⟨a, b⟩ := s
  unfold Ie.compStep
  rcases x with _ | (_ | _) | x
  · rcases a with _ | (_ | _) | a <;> rcases b with _ | (_ | _) | b <;> simp [Fx.add, Fx.abs, Fx.lt, Fx.sub]
  · rcases a with _ | (_ | _) | a <;> rcases b with _ | (_ | _) | b <;> simp [Fx.add, Fx.abs, Fx.lt, Fx.sub, Fx.neg]
  · rcases a with _ | (_ | _) | a <;> rcases b with _ | (_ | _) | b <;> simp [Fx.add, Fx.abs, Fx.lt, Fx.sub, Fx.neg]
  · exact absurd rfl (hx x)

/-- The compensated sum of a vector with a NaN or infinite element has NaN in both parts. -/
private theorem comp_bad (v : Vec c Fx dim p) (h : ∃ i, ∀ y, v.get i ≠ .fin y) : Ie.sumCompensated fl v = (.nan, .nan) := by
  obtain ⟨i, hi⟩ := h
  have := forUp_inv (n := dim) (lo := 0) (body := fun i s => Ie.compStep fl (v.get i) s) (s := ((.fin 0, .fin 0) : Fx × Fx))
    (fun k s => i.val < k → s.2 = .nan) (Nat.zero_le _) (fun h => absurd h (by omega)) (fun k s _ ih hk => by
      rcases Nat.lt_succ_iff_lt_or_eq.1 hk with h | h
      · exact compStep_nan _ _ (ih h)
      · rw [show k = i from Fin.ext h.symm]; exact compStep_bad _ hi _) i.isLt
  unfold Ie.sumCompensated Ie.fast2Sum
  simp only
  rw [this, add_nan, nan_sub]

/-- C92: the compensated sum of a vector with a NaN element is NaN, in both parts. -/
theorem C92_sumCompensated (v : Vec c Fx dim p) (h : ∃ i, v.get i = .nan) : Ie.sumCompensated fl v = (.nan, .nan) :=
  comp_bad v (h.imp fun i hi y => by rw [hi]; simp)

/-- A sum with an infinite term is that infinity or NaN. -/
private theorem eval_inf {n : ℕ} (b : Fin n → Fx) (t : RTree n) (s : Bool) (h : ∃ i ∈ t.leaves, b i = .inf s) :
    t.eval (Fx.add fl) b = .inf s ∨ t.eval (Fx.add fl) b = .nan := by
  have key : ∀ x : Fx, (Fx.add fl (.inf s) x = .inf s ∨ Fx.add fl (.inf s) x = .nan) ∧ (Fx.add fl x (.inf s) = .inf s ∨ Fx.add fl x (.inf s) = .nan) := by
    rintro (_ | t | x)
    · exact ⟨Or.inr rfl, Or.inr rfl⟩
    · constructor <;> cases s <;> cases t <;> simp [Fx.add]
    · exact ⟨Or.inl rfl, Or.inl rfl⟩
  induction t with
  | leaf j =>
    obtain ⟨i, hi, e⟩ := h
    simp only [RTree.leaves, List.mem_singleton] at hi; subst hi; exact Or.inl e
  | node l r hl hr =>
    obtain ⟨i, hi, e⟩ := h
    simp only [RTree.leaves, List.mem_append] at hi
    rw [RTree.eval]
    rcases hi with hi | hi
    · rcases hl ⟨i, hi, e⟩ with h | h <;> rw [h]
      · exact (key _).1
      · exact Or.inr (nan_add _)
    · rcases hr ⟨i, hi, e⟩ with h | h <;> rw [h]
      · exact (key _).2
      · exact Or.inr (add_nan _)

/-- C97: the part that holds: with a NaN element, or with infinite elements of both signs, both sums are NaN. Missing: infinite elements of one sign
(`C97_violated`). -/
theorem C97_partial (tb : RTree (batchSize dim false)) (ts : RTree (dim + 1)) (htb : tb.Valid) (hts : ts.Valid) (v : Vec c Fx dim p)
    (h : (∃ i, v.get i = .nan) ∨ ((∃ i, v.get i = .inf true) ∧ ∃ i, v.get i = .inf false)) :
    Ie.sum fl tb ts v = .nan ∧ Ie.sumCompensated fl v = (.nan, .nan) := by
  rcases h with h | ⟨⟨i, hi⟩, j, hj⟩
  · exact ⟨C92_sum tb ts htb hts v h, C92_sumCompensated v h⟩
  · refine ⟨?_, comp_bad v ⟨i, fun y => by rw [hi]; simp⟩⟩
    obtain ⟨n, t, b, e, hb, -, -⟩ := sum_lanes (fl := fl) tb ts htb hts v
    obtain ⟨k, hk, ek⟩ := hb i
    obtain ⟨m, hm, em⟩ := hb j
    rw [e]
    rcases eval_inf (fl := fl) b t true ⟨k, hk, ek.trans hi⟩ with h1 | h1
    · rcases eval_inf (fl := fl) b t false ⟨m, hm, em.trans hj⟩ with h2 | h2
      · rw [h1] at h2; simp at h2
      · exact h2
    · exact h1

/-- C97: without overflow, the compensated sum of finite elements is the compensated sum of the real model, to which C19 applies. -/
theorem C97_finite (fl₀ : ℝ → ℝ) (v : Vec c Fx dim p) (x : Fin dim → ℝ) (hx : ∀ i, v.get i = .fin (x i)) :
    Ie.sumCompensated (fun y => .fin (fl₀ y)) v =
      (.fin (sumCompensated (fun a b => fl₀ (a + b)) (fun a b => fl₀ (a - b)) x).1,
        .fin (sumCompensated (fun a b => fl₀ (a + b)) (fun a b => fl₀ (a - b)) x).2) := by
  have key : forUp dim 0 (fun i s => Ie.compStep (fun y => .fin (fl₀ y)) (v.get i) s) (.fin 0, .fin 0) =
      ((fun st : ℝ × ℝ => (Fx.fin st.1, Fx.fin st.2))
        (((List.ofFn x).take dim).foldl (sumCompStep (fun a b => fl₀ (a + b)) fun a b => fl₀ (a - b)) (0, 0))) := by
    refine forUp_inv (fun k s => s = (fun st : ℝ × ℝ => (Fx.fin st.1, Fx.fin st.2))
      (((List.ofFn x).take k).foldl (sumCompStep (fun a b => fl₀ (a + b)) fun a b => fl₀ (a - b)) (0, 0))) (Nat.zero_le _) rfl ?_
    rintro i s - rfl
    rw [List.take_add_one, List.getElem?_eq_getElem (by simp), Option.toList_some, List.foldl_append]
    generalize ((List.ofFn x).take i.val).foldl _ _ = t
    simp only [List.foldl_cons, List.foldl_nil, List.getElem_ofFn, Fin.eta]
    simp only [Ie.compStep, sumCompStep, hx, Fx.abs, Fx.lt, Fx.add, Fx.sub, Fx.neg, decide_eq_true_eq, gt_iff_lt, ← sub_eq_add_neg]
    split_ifs <;> rfl
  rw [List.take_of_length_le (by simp)] at key
  unfold Ie.sumCompensated sumCompensated
  rw [key]
  simp only [Ie.fast2Sum, fast2Sum, Fx.add, Fx.sub, Fx.neg, ← sub_eq_add_neg]

/-- C97: with an infinite element among elements that are not negative the sum is infinite, but the compensated sum is NaN. -/
theorem C97_violated (hf : RoundsFx fl) (tb : RTree (batchSize dim false)) (ts : RTree (dim + 1)) (htb : tb.Valid) (hts : ts.Valid) (v : Vec c Fx dim p)
    (hv : ∀ i, v.get i ≠ .nan ∧ 0 ≤ (v.get i).val) (h : ∃ i, v.get i = .inf false) :
    Ie.sum fl tb ts v = .inf false ∧ Ie.sumCompensated fl v = (.nan, .nan) := by
  constructor
  · obtain ⟨n, t, b, e, hb, hb', -⟩ := sum_lanes (fl := fl) tb ts htb hts v
    obtain ⟨i, hi⟩ := h
    obtain ⟨j, hj, ej⟩ := hb i
    rw [e, (eval_nonneg hf b t fun k => ?_).2 ⟨j, hj, ej.trans hi⟩]
    rcases hb' k with hk | ⟨m, hk⟩ <;> rw [hk]
    · simp [Fx.val]
    · exact hv m
  · exact comp_bad v (h.imp fun i hi y => by rw [hi]; simp)

/-! ## The hypotheses can be met -/

/-- A rounding that is exact up to 1000 and overflows beyond. -/
noncomputable def flSat (x : ℝ) : Fx := if 1000 < x then .inf false else if x < -1000 then .inf true else .fin x

theorem flSat_mono : RoundsMonoFx 1000 flSat where
  not_nan x := by unfold flSat; split_ifs <;> simp
  zero := by norm_num [flSat]
  nonneg x hx := by
    unfold flSat
    rw [if_neg (by linarith : ¬x < -1000)]
    split
    · simp [Fx.val]
    · exact EReal.coe_nonneg.2 hx
  mono x y h := by
    unfold flSat
    split_ifs <;> first | exact le_top | exact bot_le | exact EReal.coe_le_coe_iff.2 h | (exfalso; linarith)
  nat k hk := by
    have : (k : ℝ) ≤ 1000 := by exact_mod_cast hk
    unfold flSat
    rw [if_neg (by linarith), if_neg (by have : (0 : ℝ) ≤ k := Nat.cast_nonneg k; linarith)]
  neg_one := by norm_num [flSat]

example : ∃ fl, RoundsMonoFx 1000 fl ∧ RoundsFx fl ∧ fl 2000 = .inf false :=
  ⟨flSat, flSat_mono, flSat_mono.toRoundsFx, by norm_num [flSat]⟩

example : ∃ tb : RTree (batchSize 3 false), tb.Valid :=
  ⟨(.node (.node (.leaf 0) (.leaf 1)) (.node (.leaf 2) (.leaf 3)) : RTree 4), List.Perm.refl _⟩

example : ∃ v : Vec Cfg.sse Fx 3 false, (∃ i, v.get i = .nan) ∧ (∃ i s, v.get i = .inf s) ∧ ∃ i x, v.get i = .fin x :=
  ⟨Vec.ofFn ![.nan, .inf true, .fin 2], ⟨0, rfl⟩, ⟨1, true, rfl⟩, ⟨2, 2, rfl⟩⟩

example : ∃ v : Vec Cfg.sse Fx 3 false, (∀ i, v.get i ≠ .nan) ∧ (∃ i s, v.get i = .inf s) ∧ (∀ i, 0 ≤ (v.get i).val) ∧ ∃ i x, v.get i = .fin x :=
  ⟨Vec.ofFn ![.fin 1, .inf false, .fin 2], fun i => by fin_cases i <;> simp [Vec.get_ofFn], ⟨1, false, rfl⟩,
    fun i => by rw [Vec.get_ofFn]; fin_cases i <;> simp [Fx.val], ⟨2, 2, rfl⟩⟩

example : ∃ v : Vec Cfg.sse Fx 3 false, (∃ i, v.get i = .inf true) ∧ ∃ i, v.get i = .inf false :=
  ⟨Vec.ofFn ![.inf true, .inf false, .fin 2], ⟨0, rfl⟩, ⟨1, rfl⟩⟩

example : ∃ (v : Vec Cfg.sse Fx 3 false) (x : Fin 3 → ℝ), (∀ i, v.get i = .fin (x i)) ∧ ∃ i, x i ≠ 0 :=
  ⟨Vec.ofFn ![.fin 1, .fin 0, .fin (-2)], ![1, 0, -2], fun i => by rw [Vec.get_ofFn]; fin_cases i <;> rfl, ⟨0, by norm_num⟩⟩

example : LaneMax sseMax ∧ LaneMin sseMin ∧ LaneMax Fx.stdMax ∧ LaneMin Fx.stdMin := ⟨sseMax_lane, sseMin_lane, stdMax_lane, stdMin_lane⟩

example : (Fx.fin 0).val ≤ (Fx.fin 1).val ∧ Fx.fin 0 ≠ .nan ∧ Fx.fin 1 ≠ .nan := ⟨by simp [Fx.val], by simp, by simp⟩

end Mathter.Props
