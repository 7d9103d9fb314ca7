import Mathlib.Algebra.BigOperators.Fin
import Mathlib.Data.Finset.Lattice.Fold
import Verif.Lemmas.Vector

/-!
# Properties C03, C04, C18 (vector part): reductions, comparison, clamping
-/

namespace Mathter.Props
open Mathter
universe u
variable {K : Type u} {c : Cfg} {dim : ℕ} {p p1 p2 : Bool}

/-! ## C03 -/

private theorem eval_add_leaves [AddCommMonoid K] {n : ℕ} (b : Fin n → K) (t : RTree n) :
    t.eval (· + ·) b = (t.leaves.map b).sum := by
  induction t with
  | leaf i => simp [RTree.eval, RTree.leaves]
  | node l r hl hr => simp [RTree.eval, RTree.leaves, hl, hr]

private theorem eval_add [AddCommMonoid K] {n : ℕ} (b : Fin n → K) (t : RTree n) (ht : t.Valid) :
    t.eval (· + ·) b = ∑ i, b i := by
  rw [eval_add_leaves, (ht.map b).sum_eq, ← List.ofFn_eq_map, List.sum_ofFn]

private theorem sum_masked [AddCommMonoid K] {n dim : ℕ} (h : dim ≤ n) (b : Fin n → K) :
    ∑ l, Vec.fillMasked dim b 0 l = ∑ i : Fin dim, b (i.castLE h) := by
  have key : ∀ l, Vec.fillMasked dim b 0 l = if l.val < dim then b l else 0 := by
    intro l
    unfold Vec.fillMasked
    split
    · rw [if_pos (by omega)]
    · rfl
  simp only [key]
  rw [← Finset.sum_filter]
  symm
  apply Finset.sum_nbij (fun i => i.castLE h)
  · intro i _; simp
  · intro i _ j _ hij; simpa [Fin.ext_iff] using hij
  · intro l hl
    simp only [Finset.coe_filter, Finset.mem_univ, true_and, Set.mem_ofPred_eq] at hl
    exact ⟨⟨l.val, hl⟩, by simp, rfl⟩
  · intro i _; rfl

/-- C03: `Sum` is the sum over the visible elements for every reduction order, configuration and padding. -/
theorem C03_sum [AddCommMonoid K] (tb : RTree (batchSize dim false)) (ts : RTree dim) (htb : tb.Valid) (hts : ts.Valid)
    (v : Vec c K dim p) : v.sum tb ts = ∑ i, v.get i := by
  unfold Vec.sum
  split
  · rename_i h
    rw [eval_add _ _ htb, sum_masked (le_batchSize dim false)]
    rfl
  · rw [eval_add _ _ hts]

/-- C03: `Dot(a, b) = ∑ aᵢ · conj bᵢ`. -/
theorem C03_dot [NonUnitalNonAssocSemiring K] [Star K] (conv : Bool) (tb : RTree (batchSize dim false)) (ts : RTree dim)
    (htb : tb.Valid) (hts : ts.Valid) (a : Vec c K dim p1) (b : Vec c K dim p2) :
    Vec.dot conv tb ts a b = ∑ i, a.get i * star (b.get i) := by
  unfold Vec.dot
  rw [C03_sum tb ts htb hts]
  simp [Vec.mul, Vec.conj]

private theorem eval_min_le [LinearOrder K] {n : ℕ} (b : Fin n → K) (t : RTree n) :
    (∀ i ∈ t.leaves, t.eval min b ≤ b i) ∧ ∃ i ∈ t.leaves, t.eval min b = b i := by
  induction t with
  | leaf i => simp [RTree.eval, RTree.leaves]
  | node l r hl hr =>
    constructor
    · intro i hi
      simp only [RTree.leaves, List.mem_append] at hi
      rcases hi with hi | hi
      · exact (min_le_left _ _).trans (hl.1 i hi)
      · exact (min_le_right _ _).trans (hr.1 i hi)
    · simp only [RTree.leaves, List.mem_append, RTree.eval]
      rcases min_choice (l.eval min b) (r.eval min b) with h | h
      · obtain ⟨i, hi, e⟩ := hl.2; exact ⟨i, Or.inl hi, by rw [h, e]⟩
      · obtain ⟨i, hi, e⟩ := hr.2; exact ⟨i, Or.inr hi, by rw [h, e]⟩

private theorem eval_max_le [LinearOrder K] {n : ℕ} (b : Fin n → K) (t : RTree n) :
    (∀ i ∈ t.leaves, b i ≤ t.eval max b) ∧ ∃ i ∈ t.leaves, t.eval max b = b i := by
  induction t with
  | leaf i => simp [RTree.eval, RTree.leaves]
  | node l r hl hr =>
    constructor
    · intro i hi
      simp only [RTree.leaves, List.mem_append] at hi
      rcases hi with hi | hi
      · exact (hl.1 i hi).trans (le_max_left _ _)
      · exact (hr.1 i hi).trans (le_max_right _ _)
    · simp only [RTree.leaves, List.mem_append, RTree.eval]
      rcases max_choice (l.eval max b) (r.eval max b) with h | h
      · obtain ⟨i, hi, e⟩ := hl.2; exact ⟨i, Or.inl hi, by rw [h, e]⟩
      · obtain ⟨i, hi, e⟩ := hr.2; exact ⟨i, Or.inr hi, by rw [h, e]⟩

private theorem mem_leaves {n : ℕ} {t : RTree n} (h : t.Valid) (i : Fin n) : i ∈ t.leaves :=
  h.mem_iff.2 (List.mem_finRange i)

private theorem filled_visible {dim : ℕ} {p : Bool} (v : Vec c K dim p) (h : isBatched c dim p = true)
    (l : Fin (batchSize dim false)) : ∃ i : Fin dim, Vec.fillMaskedWithFirst dim (v.load h) l = v.get i := by
  unfold Vec.fillMaskedWithFirst
  split
  · rename_i hl; exact ⟨⟨l.val, hl⟩, rfl⟩
  · have h0 : 0 < dim := by
      rcases Nat.eq_zero_or_pos dim with h0 | h0
      · subst h0
        have := l.isLt
        simp [batchSize] at this
      · exact h0
    exact ⟨⟨0, h0⟩, rfl⟩

/-- C03/C18: `Min(v)` is a lower bound of the visible elements and is one of them. -/
theorem C03_min [LinearOrder K] (tb : RTree (batchSize dim false)) (ts : RTree dim) (htb : tb.Valid) (hts : ts.Valid)
    (v : Vec c K dim p) : (∀ i, v.minElem tb ts ≤ v.get i) ∧ ∃ i, v.minElem tb ts = v.get i := by
  unfold Vec.minElem
  split
  · rename_i h
    have key := eval_min_le (Vec.fillMaskedWithFirst dim (v.load h)) tb
    constructor
    · intro i
      have := key.1 ⟨i.val, Nat.lt_of_lt_of_le i.isLt (le_batchSize _ _)⟩ (mem_leaves htb _)
      simpa [Vec.fillMaskedWithFirst, Vec.load_of_lt] using this
    · obtain ⟨l, _, e⟩ := key.2
      obtain ⟨i, hi⟩ := filled_visible v h l
      exact ⟨i, by rw [e, hi]⟩
  · have key := eval_min_le v.get ts
    exact ⟨fun i => key.1 i (mem_leaves hts i), by obtain ⟨i, _, e⟩ := key.2; exact ⟨i, e⟩⟩

/-- C03/C18: `Max(v)` is an upper bound of the visible elements and is one of them. -/
theorem C03_max [LinearOrder K] (tb : RTree (batchSize dim false)) (ts : RTree dim) (htb : tb.Valid) (hts : ts.Valid)
    (v : Vec c K dim p) : (∀ i, v.get i ≤ v.maxElem tb ts) ∧ ∃ i, v.maxElem tb ts = v.get i := by
  unfold Vec.maxElem
  split
  · rename_i h
    have key := eval_max_le (Vec.fillMaskedWithFirst dim (v.load h)) tb
    constructor
    · intro i
      have := key.1 ⟨i.val, Nat.lt_of_lt_of_le i.isLt (le_batchSize _ _)⟩ (mem_leaves htb _)
      simpa [Vec.fillMaskedWithFirst, Vec.load_of_lt] using this
    · obtain ⟨l, _, e⟩ := key.2
      obtain ⟨i, hi⟩ := filled_visible v h l
      exact ⟨i, by rw [e, hi]⟩
  · have key := eval_max_le v.get ts
    exact ⟨fun i => key.1 i (mem_leaves hts i), by obtain ⟨i, _, e⟩ := key.2; exact ⟨i, e⟩⟩

/-- C03: the results do not depend on the configuration, packing, padding or reduction order. -/
theorem C03_config_independent [AddCommMonoid K] {c' : Cfg} {p' : Bool} (tb tb' : RTree (batchSize dim false))
    (ts ts' : RTree dim) (htb : tb.Valid) (hts : ts.Valid) (htb' : tb'.Valid) (hts' : ts'.Valid)
    (v : Vec c K dim p) (v' : Vec c' K dim p') (h : ∀ i, v.get i = v'.get i) : v.sum tb ts = v'.sum tb' ts' := by
  rw [C03_sum tb ts htb hts, C03_sum tb' ts' htb' hts']
  exact Finset.sum_congr rfl fun i _ => h i

/-- Non-vacuity: the pairwise tree `(0+1)+(2+3)` over four lanes is valid, and the left fold over three elements is. -/
example : ∃ t : RTree (batchSize 3 false), t.Valid :=
  ⟨(.node (.node (.leaf 0) (.leaf 1)) (.node (.leaf 2) (.leaf 3)) : RTree 4), by unfold RTree.Valid; decide⟩
example : (RTree.node (.node (.leaf 2) (.leaf 0)) (.leaf 1) : RTree 3).Valid := by
  unfold RTree.Valid; decide

/-! ## C04 -/

/-- C04: `a == b` exactly when all visible elements are equal; `!=` is its negation. -/
theorem C04_eq_iff [BEq K] [LawfulBEq K] (a : Vec c K dim p1) (b : Vec c K dim p2) :
    (Vec.eq a b = true ↔ ∀ i, a.get i = b.get i) ∧ Vec.ne a b = !(Vec.eq a b) := by
  constructor
  · simp [Vec.eq]
  · rfl

/-- C04: with an arbitrary element comparison (e.g. IEEE `==`, where NaN differs from itself) the result is the conjunction of
the element comparisons. -/
theorem C04_eq_elementwise [BEq K] (a : Vec c K dim p1) (b : Vec c K dim p2) :
    Vec.eq a b = true ↔ ∀ i, (a.get i == b.get i) = true := by
  simp [Vec.eq]

/-- Non-vacuity: equal visible elements, different padding. -/
example : Vec.eq (⟨fun l => if l.val = 3 then 9 else l.val⟩ : Vec Cfg.sse ℕ 3 false)
    (⟨fun l => l.val⟩ : Vec Cfg.sse ℕ 3 false) = true := by decide

/-! ## C18, vector part -/

/-- C18: elements of `Clamp(v, lo, hi)` lie in `[lo, hi]`, and elements in range are left alone. -/
theorem C18_clamp [LinearOrder K] [Zero K] (conv : Bool) (v : Vec c K dim p) (lo hi : K) (h : lo ≤ hi) (i : Fin dim) :
    lo ≤ (v.clamp conv lo hi).get i ∧ (v.clamp conv lo hi).get i ≤ hi ∧
      (lo ≤ v.get i → v.get i ≤ hi → (v.clamp conv lo hi).get i = v.get i) ∧
      (v.get i < lo → (v.clamp conv lo hi).get i = lo) ∧ (hi < v.get i → (v.clamp conv lo hi).get i = hi) := by
  have e : (v.clamp conv lo hi).get i = min (max (v.get i) lo) hi := by simp [Vec.clamp, Vec.minVec, Vec.maxVec]
  rw [e]
  refine ⟨le_min (le_max_right _ _) h, min_le_right _ _, ?_, ?_, ?_⟩
  · intro h1 h2; rw [max_eq_left h1, min_eq_left h2]
  · intro h1; rw [max_eq_right h1.le, min_eq_left h]
  · intro h1; exact min_eq_right (h1.le.trans (le_max_left _ _))

/-- C18: clamping twice is clamping once. -/
theorem C18_clamp_idempotent [LinearOrder K] [Zero K] (conv : Bool) (v : Vec c K dim p) (lo hi : K) (h : lo ≤ hi)
    (i : Fin dim) : ((v.clamp conv lo hi).clamp conv lo hi).get i = (v.clamp conv lo hi).get i :=
  (C18_clamp conv _ lo hi h i).2.2.1 (C18_clamp conv v lo hi h i).1 (C18_clamp conv v lo hi h i).2.1

/-- C18: `Saturate` clamps to `[0, 1]`. -/
theorem C18_saturate [LinearOrder K] [Zero K] [One K] (conv : Bool) (v : Vec c K dim p) (h : (0 : K) ≤ 1) (i : Fin dim) :
    0 ≤ (v.saturate conv).get i ∧ (v.saturate conv).get i ≤ 1 ∧
      (0 ≤ v.get i → v.get i ≤ 1 → (v.saturate conv).get i = v.get i) :=
  ⟨(C18_clamp conv v 0 1 h i).1, (C18_clamp conv v 0 1 h i).2.1, (C18_clamp conv v 0 1 h i).2.2.1⟩

/-- C18: elementwise `Min`/`Max`. -/
theorem C18_minmax [LinearOrder K] [Zero K] (conv : Bool) (a : Vec c K dim p1) (b : Vec c K dim p2) (i : Fin dim) :
    (Vec.minVec conv a b).get i = min (a.get i) (b.get i) ∧ (Vec.maxVec conv a b).get i = max (a.get i) (b.get i) := by
  simp [Vec.minVec, Vec.maxVec]

example : ((⟨fun l => (l.val : ℤ) * 2 - 2⟩ : Vec Cfg.sse ℤ 3 false).clamp true (-1) 1).get 2 = 1 := by decide

end Mathter.Props
