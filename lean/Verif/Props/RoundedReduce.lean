import Verif.Model.RoundedReduce
import Verif.Spec.Rounding
import Verif.Lemmas.Vector
import Verif.Lemmas.Tree
import Mathlib.Data.Fin.VecNotation
import Mathlib.Algebra.BigOperators.Fin
import Mathlib.Tactic.FinCases

/-!
# C76: rounding errors of `Sum`, `Dot` and `Length`

The bounds hold for every order in which a register or `std::reduce` combines the elements, and depend on the dimension, not on the register width.
-/

namespace Mathter.Props
open Mathter Red
variable {c : Cfg} {dim : ℕ} {p p1 p2 : Bool}

theorem tree_err {fl : ℝ → ℝ} {u : ℝ} (h : Rounding fl u) {n : ℕ} (b : Fin n → ℝ) (hb : ∀ i, fl (b i) = b i) (t : RTree n) :
    fl (t.eval (fun x y => fl (x + y)) b) = t.eval (fun x y => fl (x + y)) b ∧
    (nz b t.leaves = 0 → t.eval (fun x y => fl (x + y)) b = 0) ∧
    |t.eval (fun x y => fl (x + y)) b - (t.leaves.map b).sum| ≤ ((1 + u) ^ (nz b t.leaves - 1) - 1) * (t.leaves.map fun i => |b i|).sum := by
  have hu := h.u_nonneg
  induction t with
  | leaf i =>
    refine ⟨hb i, nz_leaf b i, ?_⟩
    rw [nz_leaf_le b i]; simp [RTree.eval, RTree.leaves]
  | node l r hl hr =>
    obtain ⟨fl1, zl, el⟩ := hl
    obtain ⟨fr1, zr, er⟩ := hr
    simp only [RTree.eval, nz_node]
    refine ⟨h.idem _, fun h0 => ?_, ?_⟩
    · rw [zl (by omega), zr (by omega), add_zero]
      simpa using h.err 0
    rw [RTree.leaves, List.map_append, List.map_append, List.sum_append, List.sum_append]
    rcases Nat.eq_zero_or_pos (nz b l.leaves) with h0 | h0
    · rw [zl h0, zero_add, fr1, (sum_zero b _ h0).1, (sum_zero b _ h0).2, h0, zero_add, zero_add, zero_add]
      exact er
    rcases Nat.eq_zero_or_pos (nz b r.leaves) with h1 | h1
    · rw [zr h1, add_zero, fl1, (sum_zero b _ h1).1, (sum_zero b _ h1).2, h1, add_zero, add_zero, add_zero]
      exact el
    · refine add_err hu el er (abs_sum b _) (abs_sum b _) ?_ ?_ (h.err _)
      · have : (1 + u) ^ (nz b l.leaves - 1 + 1) ≤ (1 + u) ^ (nz b l.leaves + nz b r.leaves - 1) := pow_le_pow_right₀ (by linarith) (by omega)
        rw [pow_succ] at this
        linarith
      · have : (1 + u) ^ (nz b r.leaves - 1 + 1) ≤ (1 + u) ^ (nz b l.leaves + nz b r.leaves - 1) := pow_le_pow_right₀ (by linarith) (by omega)
        rw [pow_succ] at this
        linarith

/-- Lanes beyond the dimension that are zero do not count. -/
private theorem tree_padded {fl : ℝ → ℝ} {u : ℝ} (h : Rounding fl u) {n : ℕ} (hd : dim ≤ n) (b : Fin n → ℝ) (x : Fin dim → ℝ) (hx : ∀ i, fl (x i) = x i)
    (hbx : ∀ l, b l = if h : l.val < dim then x ⟨l.val, h⟩ else 0) (t : RTree n) (ht : t.Valid) :
    |t.eval (fun x y => fl (x + y)) b - ∑ i, x i| ≤ ((1 + u) ^ (dim - 1) - 1) * ∑ i, |x i| := by
  have hu := h.u_nonneg
  have h0 : fl 0 = 0 := by simpa using h.err 0
  have hb : ∀ i, fl (b i) = b i := fun i => by
    rw [hbx]; split
    · exact hx _
    · exact h0
  obtain ⟨-, -, he⟩ := tree_err h b hb t
  have k1 := sum_padded hd b x hbx t ht id rfl
  have k2 := sum_padded hd b x hbx t ht abs abs_zero
  simp only [id] at k1
  rw [k1, k2] at he
  refine he.trans (mul_le_mul_of_nonneg_right ?_ (Finset.sum_nonneg fun i _ => abs_nonneg _))
  have hc := nz_padded b x hbx t ht
  have : (1 + u) ^ (nz b t.leaves - 1) ≤ (1 + u) ^ (dim - 1) := pow_le_pow_right₀ (by linarith) (by omega)
  linarith

/-- C76: `Sum` of floats. -/
theorem C76_sum {fl : ℝ → ℝ} {u : ℝ} (h : Rounding fl u) (tb : RTree (batchSize dim false)) (ts : RTree (dim + 1)) (htb : tb.Valid) (hts : ts.Valid)
    (v : Vec c ℝ dim p) (hv : ∀ i, fl (v.get i) = v.get i) :
    |Fl.sum fl tb ts v - ∑ i, v.get i| ≤ ((1 + u) ^ (dim - 1) - 1) * ∑ i, |v.get i| := by
  unfold Fl.sum
  split
  · rename_i hb
    refine tree_padded h (le_batchSize dim false) _ v.get hv (fun l => ?_) tb htb
    unfold Vec.fillMasked
    split
    · rw [dif_pos (by omega)]; rfl
    · dsimp only
      split <;> rfl
  · exact tree_padded h (Nat.le_succ _) _ v.get hv (fun l => rfl) ts hts

/-- C76: `Dot` of floats. -/
theorem C76_dot {fl : ℝ → ℝ} {u : ℝ} (h : Rounding fl u) (conv : Bool) (tb : RTree (batchSize dim false)) (ts : RTree (dim + 1)) (htb : tb.Valid)
    (hts : ts.Valid) (a : Vec c ℝ dim p1) (b : Vec c ℝ dim p2) :
    |Fl.dot fl conv tb ts a b - ∑ i, a.get i * b.get i| ≤ ((1 + u) ^ dim - 1) * ∑ i, |a.get i * b.get i| := by
  have hu := h.u_nonneg
  rcases Nat.eq_zero_or_pos dim with h0 | h0
  · subst h0
    have := C76_sum h tb ts htb hts (Fl.mul fl conv a b) (fun i => i.elim0)
    simpa [Fl.dot] using this
  have := C76_sum h tb ts htb hts (Fl.mul fl conv a b) (fun i => by simp only [Fl.mul, Vec.get_doBinary]; exact h.idem _)
  simp only [Fl.mul, Vec.get_doBinary] at this
  change |Fl.dot fl conv tb ts a b - _| ≤ _ at this
  have e1 : |∑ i, fl (a.get i * b.get i) - ∑ i, a.get i * b.get i| ≤ u * ∑ i, |a.get i * b.get i| := by
    rw [← Finset.sum_sub_distrib, Finset.mul_sum]
    exact (Finset.abs_sum_le_sum_abs _ _).trans (Finset.sum_le_sum fun i _ => h.err _)
  have e2 : ∑ i, |fl (a.get i * b.get i)| ≤ (1 + u) * ∑ i, |a.get i * b.get i| := by
    rw [Finset.mul_sum]
    refine Finset.sum_le_sum fun i _ => ?_
    have := h.err (a.get i * b.get i)
    have := abs_sub_abs_le_abs_sub (fl (a.get i * b.get i)) (a.get i * b.get i)
    linarith
  have e3 := abs_add_le (Fl.dot fl conv tb ts a b - ∑ i, fl (a.get i * b.get i)) (∑ i, fl (a.get i * b.get i) - ∑ i, a.get i * b.get i)
  rw [sub_add_sub_cancel] at e3
  have h1 : (0 : ℝ) ≤ (1 + u) ^ (dim - 1) - 1 := by
    have : (1 : ℝ) ≤ (1 + u) ^ (dim - 1) := one_le_pow₀ (by linarith)
    linarith
  have e4 := mul_le_mul_of_nonneg_left e2 h1
  have e5 : (1 + u) ^ dim = (1 + u) ^ (dim - 1) * (1 + u) := by rw [← pow_succ, Nat.sub_add_cancel h0]
  rw [e5]
  nlinarith

/-- C76: `LengthSquared` of floats has a small relative error. -/
theorem C76_lengthSquared {fl : ℝ → ℝ} {u : ℝ} (h : Rounding fl u) (conv : Bool) (tb : RTree (batchSize dim false)) (ts : RTree (dim + 1)) (htb : tb.Valid)
    (hts : ts.Valid) (v : Vec c ℝ dim p) :
    |Fl.lengthSquared fl conv tb ts v - ∑ i, v.get i ^ 2| ≤ ((1 + u) ^ dim - 1) * ∑ i, v.get i ^ 2 := by
  have := C76_dot h conv tb ts htb hts v v
  simp only [← sq, abs_sq] at this
  exact this

/-- C76: `Length` of floats has a small relative error. -/
theorem C76_length {fl : ℝ → ℝ} {u : ℝ} (h : Rounding fl u) (conv : Bool) (tb : RTree (batchSize dim false)) (ts : RTree (dim + 1)) (htb : tb.Valid)
    (hts : ts.Valid) (v : Vec c ℝ dim p) :
    |Fl.length fl conv tb ts v - Real.sqrt (∑ i, v.get i ^ 2)| ≤ ((1 + u) ^ (dim + 1) - 1) * Real.sqrt (∑ i, v.get i ^ 2) := by
  have hu := h.u_nonneg
  have hq := C76_lengthSquared h conv tb ts htb hts v
  have he := h.err (Real.sqrt (Fl.lengthSquared fl conv tb ts v))
  change |Fl.length fl conv tb ts v - _| ≤ _ at he
  have hS : 0 ≤ ∑ i, v.get i ^ 2 := Finset.sum_nonneg fun i _ => sq_nonneg _
  have hg1 : (1 : ℝ) ≤ (1 + u) ^ dim := one_le_pow₀ (by linarith)
  rw [pow_succ]
  generalize Fl.length fl conv tb ts v = L at *
  generalize Fl.lengthSquared fl conv tb ts v = q at *
  generalize ∑ i, v.get i ^ 2 = S at *
  generalize (1 + u) ^ dim = g at *
  have hs0 := Real.sqrt_nonneg S
  -- the square root of the computed sum
  have up : Real.sqrt q ≤ g * Real.sqrt S := by
    rw [show g * Real.sqrt S = Real.sqrt (g ^ 2 * S) by rw [Real.sqrt_mul (sq_nonneg _), Real.sqrt_sq (by linarith)]]
    apply Real.sqrt_le_sqrt
    have := (abs_le.1 hq).2
    nlinarith [mul_nonneg hS (by nlinarith : (0 : ℝ) ≤ g ^ 2 - g)]
  have lo : (2 - g) * Real.sqrt S ≤ Real.sqrt q := by
    rcases le_or_gt g 2 with h2 | h2
    · rw [show (2 - g) * Real.sqrt S = Real.sqrt ((2 - g) ^ 2 * S) by rw [Real.sqrt_mul (sq_nonneg _), Real.sqrt_sq (by linarith)]]
      apply Real.sqrt_le_sqrt
      have := (abs_le.1 hq).1
      nlinarith [mul_nonneg hS (by nlinarith : (0 : ℝ) ≤ (2 - g) - (2 - g) ^ 2)]
    · have := Real.sqrt_nonneg q
      nlinarith
  have hq0 := Real.sqrt_nonneg q
  rw [abs_of_nonneg hq0] at he
  have e1 := (abs_le.1 he).1
  have e2 := (abs_le.1 he).2
  have e3 : u * Real.sqrt q ≤ u * (g * Real.sqrt S) := mul_le_mul_of_nonneg_left up hu
  rw [abs_le]
  constructor <;> nlinarith

/-- C76: `Distance` of floats has a small relative error, however close the points are. -/
theorem C76_distance {fl : ℝ → ℝ} {u : ℝ} (h : Rounding fl u) (conv : Bool) (tb : RTree (batchSize dim false)) (ts : RTree (dim + 1)) (htb : tb.Valid)
    (hts : ts.Valid) (a : Vec c ℝ dim p1) (b : Vec c ℝ dim p2) :
    |Fl.distance fl conv tb ts a b - Real.sqrt (∑ i, (a.get i - b.get i) ^ 2)| ≤
      ((1 + u) ^ (dim + 2) - 1) * Real.sqrt (∑ i, (a.get i - b.get i) ^ 2) := by
  have hu := h.u_nonneg
  have this := C76_length h conv tb ts htb hts (Fl.sub fl conv a b)
  simp only [Fl.sub, Vec.get_doBinary] at this
  change |Fl.distance fl conv tb ts a b - _| ≤ _ at this
  have up : Real.sqrt (∑ i, fl (a.get i - b.get i) ^ 2) ≤ (1 + u) * Real.sqrt (∑ i, (a.get i - b.get i) ^ 2) := by
    rw [show (1 + u) * Real.sqrt (∑ i, (a.get i - b.get i) ^ 2) = Real.sqrt ((1 + u) ^ 2 * ∑ i, (a.get i - b.get i) ^ 2) by
      rw [Real.sqrt_mul (sq_nonneg _), Real.sqrt_sq (by linarith)], Finset.mul_sum]
    refine Real.sqrt_le_sqrt (Finset.sum_le_sum fun i _ => ?_)
    rw [← mul_pow]
    apply sq_le_sq.2
    rw [abs_mul, abs_of_nonneg (by linarith : 0 ≤ 1 + u)]
    have := h.err (a.get i - b.get i)
    have := abs_sub_abs_le_abs_sub (fl (a.get i - b.get i)) (a.get i - b.get i)
    linarith
  have lo : (1 - u) * Real.sqrt (∑ i, (a.get i - b.get i) ^ 2) ≤ Real.sqrt (∑ i, fl (a.get i - b.get i) ^ 2) := by
    rcases le_or_gt u 1 with h1 | h1
    · rw [show (1 - u) * Real.sqrt (∑ i, (a.get i - b.get i) ^ 2) = Real.sqrt ((1 - u) ^ 2 * ∑ i, (a.get i - b.get i) ^ 2) by
        rw [Real.sqrt_mul (sq_nonneg _), Real.sqrt_sq (by linarith)], Finset.mul_sum]
      refine Real.sqrt_le_sqrt (Finset.sum_le_sum fun i _ => ?_)
      rw [← mul_pow]
      apply sq_le_sq.2
      rw [abs_mul, abs_of_nonneg (by linarith : 0 ≤ 1 - u)]
      have := h.err (a.get i - b.get i)
      have := abs_sub_abs_le_abs_sub (a.get i - b.get i) (fl (a.get i - b.get i))
      rw [abs_sub_comm _ (fl _)] at this
      linarith
    · have h1 := Real.sqrt_nonneg (∑ i, (a.get i - b.get i) ^ 2)
      have h2 := Real.sqrt_nonneg (∑ i, fl (a.get i - b.get i) ^ 2)
      nlinarith
  have hg1 : (1 : ℝ) ≤ (1 + u) ^ (dim + 1) := one_le_pow₀ (by linarith)
  rw [show dim + 2 = dim + 1 + 1 from rfl, pow_succ _ (dim + 1)]
  have hD := Real.sqrt_nonneg (∑ i, (a.get i - b.get i) ^ 2)
  generalize Real.sqrt (∑ i, (a.get i - b.get i) ^ 2) = D at *
  generalize Real.sqrt (∑ i, fl (a.get i - b.get i) ^ 2) = D' at *
  generalize Fl.distance fl conv tb ts a b = d at *
  generalize (1 + u) ^ (dim + 1) = g at *
  have e1 := mul_le_mul_of_nonneg_left up (by linarith : 0 ≤ g - 1)
  have e2 := (abs_le.1 this).1
  have e3 := (abs_le.1 this).2
  rw [abs_le]
  constructor <;> nlinarith

/-- A rounding and a summation order exist for single precision and a four-lane register. -/
example : Rounding (flAway 24) ((2 : ℝ) ^ (-(24 : ℕ) : ℤ)) ∧
    (RTree.node (.node (.leaf ⟨0, by decide⟩) (.leaf ⟨2, by decide⟩)) (.node (.leaf ⟨1, by decide⟩) (.leaf ⟨3, by decide⟩)) : RTree (batchSize 3 false)).Valid ∧
    (RTree.node (.node (.node (.leaf 3) (.leaf 0)) (.leaf 1)) (.leaf 2) : RTree (3 + 1)).Valid ∧
    flAway 24 ((Vec.ofFn ![1, 2, 3] : Vec Cfg.sse ℝ 3 false).get 2) = 3 := by
  refine ⟨(flAway_roundsToNearest (by norm_num)).rounding (by norm_num), by unfold RTree.Valid; decide, by unfold RTree.Valid; decide, ?_⟩
  rw [Vec.get_ofFn]
  have := (flAway_roundsToNearest (p := 24) (by norm_num)).nearest 3 3 ⟨3, 0, by norm_num, by norm_num⟩
  rw [sub_self, abs_zero] at this
  exact sub_eq_zero.1 (abs_nonpos_iff.1 this)

end Mathter.Props
