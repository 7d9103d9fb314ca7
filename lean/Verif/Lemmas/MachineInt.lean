import Mathlib.Algebra.Order.BigOperators.Group.List
import Mathlib.Algebra.BigOperators.Group.List.Lemmas
import Mathlib.Algebra.Order.Group.Unbundled.Int
import Mathlib.Tactic.Linarith
import Mathlib.Tactic.Ring
import Mathlib.Tactic.IntervalCases
import Verif.Lemmas.Vector
import Mathlib.Algebra.BigOperators.Fin
import Mathlib.Algebra.Order.BigOperators.Group.Finset
import Verif.Spec.IntRange

/-! # Lemmas about machine integers -/

namespace Mathter
namespace IntTy

theorem inRange_iff (t : IntTy) (x : ℤ) : InRange t x ↔ t.lo ≤ x ∧ x ≤ t.hi := by
  unfold InRange lo hi
  split <;> omega

theorem pow_pred {b : ℕ} (h : 1 ≤ b) : (2 : ℤ) ^ b = 2 * 2 ^ (b - 1) := by
  obtain ⟨k, rfl⟩ := Nat.exists_eq_add_of_le' h
  rw [Nat.add_sub_cancel, pow_succ]; ring

theorem hi_sub_lo {t : IntTy} (h : 1 ≤ t.bits) : t.hi - t.lo = 2 ^ t.bits - 1 := by
  unfold hi lo
  have := pow_pred h
  split <;> omega

theorem conv_dvd (t : IntTy) (x : ℤ) : (2 : ℤ) ^ t.bits ∣ t.conv x - x := by
  unfold conv
  split
  · have e := Int.bmod_eq_self_sub_mul_bdiv x (2 ^ t.bits)
    push_cast at e
    exact ⟨-Int.bdiv x (2 ^ t.bits), by linarith⟩
  · exact ⟨-(x / 2 ^ t.bits), by have := Int.emod_add_mul_ediv x (2 ^ t.bits); linarith⟩

theorem conv_range {t : IntTy} (h : 1 ≤ t.bits) (x : ℤ) : t.lo ≤ t.conv x ∧ t.conv x ≤ t.hi := by
  unfold conv lo hi
  have hp : 0 < 2 ^ t.bits := Nat.two_pow_pos _
  have hb := pow_pred h
  split
  · have h1 := Int.bmod_lt (x := x) hp
    have h2 := Int.le_bmod (x := x) hp
    push_cast at h1 h2
    omega
  · exact ⟨Int.emod_nonneg _ (by positivity), by have := Int.emod_lt_of_pos x (by positivity : (0 : ℤ) < 2 ^ t.bits); omega⟩

theorem eq_of_dvd {t : IntTy} (h : 1 ≤ t.bits) {x y : ℤ} (hx : t.lo ≤ x ∧ x ≤ t.hi) (hy : t.lo ≤ y ∧ y ≤ t.hi) (hd : (2 : ℤ) ^ t.bits ∣ x - y) : x = y := by
  have hs := hi_sub_lo h
  have := Int.eq_zero_of_abs_lt_dvd hd (by rw [abs_lt]; constructor <;> linarith [hx.1, hx.2, hy.1, hy.2])
  linarith

theorem conv_unique {t : IntTy} (h : 1 ≤ t.bits) {x y : ℤ} (hy : t.lo ≤ y ∧ y ≤ t.hi) (hd : (2 : ℤ) ^ t.bits ∣ x - y) : t.conv x = y := by
  refine eq_of_dvd h (conv_range h x) hy ?_
  have := dvd_add (conv_dvd t x) hd
  simpa using this

theorem conv_self {t : IntTy} (h : 1 ≤ t.bits) {x : ℤ} (hx : t.lo ≤ x ∧ x ≤ t.hi) : t.conv x = x :=
  conv_unique h hx (by simp)

theorem conv_congr {t : IntTy} (h : 1 ≤ t.bits) {x y : ℤ} (hd : (2 : ℤ) ^ t.bits ∣ x - y) : t.conv x = t.conv y := by
  refine conv_unique h (conv_range h y) ?_
  have := dvd_sub hd (conv_dvd t y)
  have e : x - y - (t.conv y - y) = x - t.conv y := by ring
  rwa [e] at this

theorem conv_unsigned {t : IntTy} (h : t.signed = false) (x : ℤ) : t.conv x = x % 2 ^ t.bits := by
  unfold conv
  rw [h]; rfl

theorem bits_common (s t : IntTy) : 32 ≤ (common s t).bits := by
  have hp : ∀ t : IntTy, 32 ≤ (promote t).bits := by
    intro t
    unfold promote
    split
    · exact le_refl 32
    · omega
  have h1 := hp s
  have h2 := hp t
  unfold common usual
  split
  · exact h1
  · split
    · exact h2
    · exact h1

theorem result_conv {t : IntTy} (h : 1 ≤ t.bits) {x y : ℤ} (hr : t.result x = some y) : y = t.conv x := by
  unfold result at hr
  split at hr
  · split at hr
    · rename_i hx
      rw [← Option.some.inj hr, conv_self h hx]
    · simp at hr
  · rename_i hu
    rw [← Option.some.inj hr, conv_unsigned (by simpa using hu)]

theorem result_exact {t : IntTy} (h : 1 ≤ t.bits) {x : ℤ} (hx : t.lo ≤ x ∧ x ≤ t.hi) : t.result x = some x := by
  unfold result
  rw [if_pos hx]
  split
  · rfl
  · rename_i hu
    rw [← conv_unsigned (by simpa using hu), conv_self h hx]

theorem result_unsigned {t : IntTy} (h : t.signed = false) (x : ℤ) : t.result x = some (x % 2 ^ t.bits) := by
  unfold result
  rw [h]; rfl

/-- The functors `+`, `-`, `*` respect congruence. -/
theorem op_dvd {f : ℤ → ℤ → ℤ} (hf : f = (· + ·) ∨ f = (· - ·) ∨ f = (· * ·)) {m a a' b b' : ℤ} (ha : m ∣ a - a') (hb : m ∣ b - b') :
    m ∣ f a b - f a' b' := by
  obtain ⟨x, hx⟩ := ha
  obtain ⟨y, hy⟩ := hb
  rcases hf with rfl | rfl | rfl
  · exact ⟨x + y, by simp only; linarith⟩
  · exact ⟨x - y, by simp only; linarith⟩
  · refine ⟨x * b + a' * y, ?_⟩
    simp only
    have e1 : a = m * x + a' := by linarith
    have e2 : b' = b - m * y := by linarith
    rw [e2, e1]; ring

end IntTy

namespace Vec
open IntTy
variable {cA cB cC : Cfg} {dim : ℕ} {p p1 p2 : Bool}

theorem load_get (v : Vec cA ℤ dim p) (h : isBatched cA dim p = true) (i : Fin dim) :
    v.load h ⟨i.val, Nat.lt_of_lt_of_le i.isLt (le_batchSize _ _)⟩ = v.get i := rfl

/-- If the scalar operator is defined for all elements, so is the operator on vectors, with the same results. -/
theorem opInt_scalar (f : ℤ → ℤ → ℤ) (s t : IntTy) (a : Vec cA ℤ dim p1) (b : Vec cB ℤ dim p2) (ha : ∀ i, s.lo ≤ a.get i ∧ a.get i ≤ s.hi)
    (hb : ∀ i, t.lo ≤ b.get i ∧ b.get i ≤ t.hi) (r : Fin dim → ℤ) (hr : ∀ i, IntTy.scalarOp f s t (a.get i) (b.get i) = some (r i)) :
    ∃ v : Vec cC ℤ dim (p1 && p2), opInt f s t a b = some v ∧ ∀ i, v.get i = r i := by
  unfold opInt
  have hbits := bits_common s t
  split
  · rename_i h
    refine ⟨_, rfl, fun i => ?_⟩
    rw [get_store]
    have hi := hr i
    unfold IntTy.scalarOp at hi
    have e1 : (common s t).conv (a.get i) = a.get i := conv_self (by omega) (by rw [← h.2.2.2.1]; exact ha i)
    have e2 : (common s t).conv (b.get i) = b.get i := conv_self (by omega) (by rw [← h.2.2.2.2]; exact hb i)
    rw [e1, e2] at hi
    exact (result_conv (by omega) hi).symm
  · exact ⟨_, by rw [seqFin_eq_some.2 hr]; rfl, fun i => get_ofFn _ _⟩

theorem opInt_exact (f : ℤ → ℤ → ℤ) (s t : IntTy) (a : Vec cA ℤ dim p1) (b : Vec cB ℤ dim p2)
    (ha : ∀ i, (common s t).lo ≤ a.get i ∧ a.get i ≤ (common s t).hi) (hb : ∀ i, (common s t).lo ≤ b.get i ∧ b.get i ≤ (common s t).hi)
    (hr : ∀ i, (common s t).lo ≤ f (a.get i) (b.get i) ∧ f (a.get i) (b.get i) ≤ (common s t).hi) :
    ∃ v : Vec cC ℤ dim (p1 && p2), opInt f s t a b = some v ∧ ∀ i, v.get i = f (a.get i) (b.get i) := by
  have hbits := bits_common s t
  unfold opInt
  split
  · refine ⟨_, rfl, fun i => ?_⟩
    rw [get_store]
    exact conv_self (by omega) (hr i)
  · refine ⟨ofFn fun i => f (a.get i) (b.get i), ?_, fun i => get_ofFn _ _⟩
    have : seqFin (fun i => IntTy.scalarOp f s t (a.get i) (b.get i)) = some fun i => f (a.get i) (b.get i) := by
      refine seqFin_eq_some.2 fun i => ?_
      unfold IntTy.scalarOp
      rw [conv_self (by omega) (ha i), conv_self (by omega) (hb i)]
      exact result_exact (by omega) (hr i)
    rw [this]; rfl

theorem opInt_unsigned {f : ℤ → ℤ → ℤ} (hf : f = (· + ·) ∨ f = (· - ·) ∨ f = (· * ·)) (s t : IntTy) (hu : (common s t).signed = false)
    (a : Vec cA ℤ dim p1) (b : Vec cB ℤ dim p2) :
    ∃ v : Vec cC ℤ dim (p1 && p2), opInt f s t a b = some v ∧ ∀ i, v.get i = f (a.get i) (b.get i) % 2 ^ (common s t).bits := by
  unfold opInt
  split
  · refine ⟨_, rfl, fun i => ?_⟩
    rw [get_store]
    exact conv_unsigned hu _
  · refine ⟨ofFn fun i => f (a.get i) (b.get i) % 2 ^ (common s t).bits, ?_, fun i => get_ofFn _ _⟩
    have : seqFin (fun i => IntTy.scalarOp f s t (a.get i) (b.get i)) = some fun i => f (a.get i) (b.get i) % 2 ^ (common s t).bits := by
      refine seqFin_eq_some.2 fun i => ?_
      unfold IntTy.scalarOp
      rw [result_unsigned hu]
      congr 1
      exact Int.emod_eq_emod_iff_emod_sub_eq_zero.2 (Int.emod_eq_zero_of_dvd (op_dvd hf (conv_dvd _ _) (conv_dvd _ _)))
    rw [this]; rfl

end Vec

/-! ## Sums -/

namespace Vec
open IntTy
variable {c : Cfg} {dim n : ℕ} {p : Bool}

theorem eval_conv {t : IntTy} (h : 1 ≤ t.bits) (b : Fin n → ℤ) (hb : ∀ i, t.lo ≤ b i ∧ b i ≤ t.hi) (tr : RTree n) :
    tr.eval (fun x y => t.conv (x + y)) b = t.conv ((tr.leaves.map b).sum) := by
  induction tr with
  | leaf i => simp [RTree.eval, RTree.leaves, conv_self h (hb i)]
  | node l r hl hr =>
    simp only [RTree.eval, RTree.leaves, List.map_append, List.sum_append]
    rw [hl, hr]
    exact conv_congr h (op_dvd (Or.inl rfl) (conv_dvd t _) (conv_dvd t _))

theorem eval_modular {t : IntTy} (h : 1 ≤ t.bits) (hm : t.bits ≤ 16 ∨ t.signed = false ∧ 32 ≤ t.bits) (b : Fin n → ℤ)
    (hb : ∀ i, t.lo ≤ b i ∧ b i ≤ t.hi) (tr : RTree n) :
    tr.eval (sumStep t) (fun i => some (b i)) = some (t.conv ((tr.leaves.map b).sum)) := by
  induction tr with
  | leaf i => simp [RTree.eval, RTree.leaves, conv_self h (hb i)]
  | node l r hl hr =>
    simp only [RTree.eval, RTree.leaves, List.map_append, List.sum_append]
    rw [hl, hr]
    simp only [sumStep, Option.bind_some]
    have hbits := bits_common t t
    set x := (l.leaves.map b).sum
    set y := (r.leaves.map b).sum
    have hd := op_dvd (f := (· + ·)) (Or.inl rfl) (conv_dvd t x) (conv_dvd t y)
    have r1 := conv_range h x
    have r2 := conv_range h y
    rcases hm with h16 | ⟨hu, h32⟩
    · have hc : common t t = i32 := by
        unfold common promote
        rw [if_pos (by omega)]; rfl
      have hb2 : t.hi ≤ 2 ^ 16 ∧ -2 ^ 16 ≤ t.lo := by
        unfold hi lo
        have h2 : (2 : ℤ) ^ t.bits ≤ 2 ^ 16 := pow_le_pow_right₀ (by norm_num) h16
        have h3 := pow_pred h
        have h4 : (0 : ℤ) < 2 ^ (t.bits - 1) := by positivity
        split <;> constructor <;> omega
      have hlo : i32.lo = -2 ^ 31 := rfl
      have hhi : i32.hi = 2 ^ 31 - 1 := rfl
      unfold IntTy.scalarOp
      rw [hc, conv_self (t := i32) (by decide) (by rw [hlo, hhi]; omega), conv_self (t := i32) (by decide) (by rw [hlo, hhi]; omega),
        result_exact (by decide) (by rw [hlo, hhi]; simp only; omega), Option.map_some]
      congr 1
      exact conv_congr h hd
    · have hc : common t t = t := by
        unfold common promote usual
        simp only [if_neg (not_lt.2 h32), lt_irrefl, if_false, Bool.and_self]
      unfold IntTy.scalarOp
      rw [hc, result_unsigned hu, Option.map_some]
      congr 1
      rw [← conv_unsigned hu, conv_self h r1, conv_self h r2, conv_self h (conv_range h _)]
      exact conv_congr h hd

theorem conv_le_hi {t : IntTy} (x : ℤ) (h : |x| ≤ t.hi) (hs : t.signed = true ∨ 0 ≤ x) : t.lo ≤ x ∧ x ≤ t.hi := by
  have h1 := abs_le.1 h
  refine ⟨?_, h1.2⟩
  unfold lo hi at *
  rcases hs with hs | hs
  · rw [hs] at h1 ⊢
    simp only [if_true] at h1 ⊢
    omega
  · split
    · have : (0 : ℤ) < 2 ^ (t.bits - 1) := by positivity
      omega
    · exact hs

theorem common_range {t : IntTy} (h : 1 ≤ t.bits) {x : ℤ} (hx : t.lo ≤ x ∧ x ≤ t.hi) : (common t t).lo ≤ x ∧ x ≤ (common t t).hi := by
  unfold common promote usual
  split
  · rename_i h32
    have hlo : i32.lo = -2 ^ 31 := rfl
    have hhi : i32.hi = 2 ^ 31 - 1 := rfl
    have : (2 : ℤ) ^ t.bits ≤ 2 ^ 31 := pow_le_pow_right₀ (by norm_num) (by omega)
    have h3 := pow_pred h
    have h4 : (0 : ℤ) < 2 ^ (t.bits - 1) := by positivity
    have : -2 ^ 31 ≤ t.lo ∧ t.hi ≤ 2 ^ 31 - 1 := by
      unfold lo hi
      split <;> constructor <;> omega
    simp only [lt_irrefl, if_false, Bool.and_self]
    change i32.lo ≤ x ∧ x ≤ i32.hi
    rw [hlo, hhi]
    omega
  · simpa using hx

/-- Sums that cannot overflow in any order. -/
theorem eval_exact {t : IntTy} (h : 1 ≤ t.bits) (b : Fin n → ℤ) (hb : ∀ i, t.lo ≤ b i ∧ b i ≤ t.hi) (tr : RTree n)
    (hs : (tr.leaves.map fun i => |b i|).sum ≤ t.hi) : tr.eval (sumStep t) (fun i => some (b i)) = some (tr.leaves.map b).sum := by
  have habs : ∀ tr : RTree n, |(tr.leaves.map b).sum| ≤ (tr.leaves.map fun i => |b i|).sum := by
    intro tr
    induction tr.leaves with
    | nil => simp
    | cons i l ih =>
      simp only [List.map_cons, List.sum_cons]
      exact (abs_add_le _ _).trans (by linarith)
  have hpos : ∀ tr : RTree n, 0 ≤ (tr.leaves.map fun i => |b i|).sum := fun tr => (abs_nonneg _).trans (habs tr)
  have hsign : ∀ tr : RTree n, t.signed = true ∨ 0 ≤ (tr.leaves.map b).sum := by
    intro tr
    cases hsg : t.signed
    · right
      refine List.sum_nonneg ?_
      intro x hx
      obtain ⟨i, _, rfl⟩ := List.mem_map.1 hx
      have := (hb i).1
      unfold lo at this
      rw [hsg] at this
      exact this
    · exact Or.inl rfl
  induction tr with
  | leaf i => simp [RTree.eval, RTree.leaves]
  | node l r hl hr =>
    have hs' := hs
    have hrange : t.lo ≤ ((RTree.node l r).leaves.map b).sum ∧ ((RTree.node l r).leaves.map b).sum ≤ t.hi :=
      conv_le_hi _ ((habs _).trans hs) (hsign _)
    simp only [RTree.leaves, List.map_append, List.sum_append] at hs hrange
    have pl := hpos l
    have pr := hpos r
    simp only [RTree.eval, RTree.leaves, List.map_append, List.sum_append]
    rw [hl (by linarith), hr (by linarith)]
    simp only [sumStep, Option.bind_some]
    have hbits := bits_common t t
    have rl := common_range h (conv_le_hi _ ((habs l).trans (by linarith)) (hsign l))
    have rr := common_range h (conv_le_hi _ ((habs r).trans (by linarith)) (hsign r))
    unfold IntTy.scalarOp
    rw [conv_self (by omega) rl, conv_self (by omega) rr, result_exact (by omega) (common_range h hrange), Option.map_some, conv_self h hrange]

theorem sum_leaves {n : ℕ} (tr : RTree n) (hv : tr.Valid) (b : Fin n → ℤ) : (tr.leaves.map b).sum = ∑ i, b i := by
  rw [(List.Perm.map b hv).sum_eq, ← List.ofFn_eq_map, List.sum_ofFn]

theorem sum_masked (b : Fin (batchSize dim false) → ℤ) :
    ∑ l, fillMasked dim b 0 l = ∑ i : Fin dim, b ⟨i.val, Nat.lt_of_lt_of_le i.isLt (le_batchSize _ _)⟩ := by
  have key : ∀ l, fillMasked dim b 0 l = if l.val < dim then b l else 0 := by
    intro l
    unfold fillMasked
    split
    · rw [if_pos (by omega)]
    · rfl
  simp only [key]
  rw [← Finset.sum_filter]
  symm
  apply Finset.sum_nbij (fun i => i.castLE (le_batchSize dim false))
  · intro i _; simp
  · intro i _ j _ hij; simpa [Fin.ext_iff] using hij
  · intro l hl
    simp only [Finset.coe_filter, Finset.mem_univ, true_and, Set.mem_ofPred_eq] at hl
    exact ⟨⟨l.val, hl⟩, by simp, rfl⟩
  · intro i _; rfl

theorem masked_range {t : IntTy} (h : isBatched c dim p = true) (v : Vec c ℤ dim p) (hv : ∀ i, t.lo ≤ v.get i ∧ v.get i ≤ t.hi)
    (l : Fin (batchSize dim false)) : t.lo ≤ fillMasked dim (v.load h) 0 l ∧ fillMasked dim (v.load h) 0 l ≤ t.hi := by
  by_cases hl : l.val < dim
  · have : fillMasked dim (v.load h) 0 l = v.get ⟨l.val, hl⟩ := by
      unfold fillMasked
      split
      · rfl
      · exact if_pos hl
    rw [this]
    exact hv _
  · have : fillMasked dim (v.load h) 0 l = 0 := by
      unfold fillMasked
      rw [if_neg (by have := l.isLt; omega), if_neg hl]
    rw [this]
    unfold lo hi
    have h1 : (0 : ℤ) < 2 ^ (t.bits - 1) := by positivity
    have h2 : (0 : ℤ) < 2 ^ t.bits := by positivity
    split <;> constructor <;> omega

/-- With SIMD, sums are defined and wrap around. -/
theorem sumInt_batched {t : IntTy} (h1 : 1 ≤ t.bits) (tb : RTree (batchSize dim false)) (ts : RTree dim) (htb : tb.Valid)
    (h : isBatched c dim p = true) (v : Vec c ℤ dim p) (hv : ∀ i, t.lo ≤ v.get i ∧ v.get i ≤ t.hi) :
    v.sumInt t tb ts = some (t.conv (∑ i, v.get i)) := by
  unfold sumInt
  rw [dif_pos h, eval_conv h1 _ (masked_range h v hv), sum_leaves _ htb, sum_masked]
  rfl

theorem sumInt_modular {t : IntTy} (h1 : 1 ≤ t.bits) (hm : t.bits ≤ 16 ∨ t.signed = false ∧ 32 ≤ t.bits) (tb : RTree (batchSize dim false)) (ts : RTree dim)
    (htb : tb.Valid) (hts : ts.Valid) (v : Vec c ℤ dim p) (hv : ∀ i, t.lo ≤ v.get i ∧ v.get i ≤ t.hi) :
    v.sumInt t tb ts = some (t.conv (∑ i, v.get i)) := by
  by_cases h : isBatched c dim p = true
  · exact sumInt_batched h1 tb ts htb h v hv
  · unfold sumInt
    rw [dif_neg h, eval_modular h1 hm _ hv, sum_leaves _ hts]

theorem sumInt_exact {t : IntTy} (h1 : 1 ≤ t.bits) (tb : RTree (batchSize dim false)) (ts : RTree dim)
    (htb : tb.Valid) (hts : ts.Valid) (v : Vec c ℤ dim p) (hv : ∀ i, t.lo ≤ v.get i ∧ v.get i ≤ t.hi) (hs : ∑ i, |v.get i| ≤ t.hi) :
    v.sumInt t tb ts = some (∑ i, v.get i) := by
  by_cases h : isBatched c dim p = true
  · rw [sumInt_batched h1 tb ts htb h v hv, conv_self h1]
    refine conv_le_hi _ ((Finset.abs_sum_le_sum_abs _ _).trans hs) ?_
    cases hsg : t.signed
    · refine Or.inr (Finset.sum_nonneg fun i _ => ?_)
      have := (hv i).1
      unfold lo at this
      rw [hsg] at this
      exact this
    · exact Or.inl rfl
  · unfold sumInt
    rw [dif_neg h, eval_exact h1 _ hv, sum_leaves _ hts]
    rwa [sum_leaves _ hts fun i => |v.get i|]

theorem tdiv_range {t : IntTy} {x y : ℤ} (hx : t.lo ≤ x ∧ x ≤ t.hi) (hy : t.lo ≤ y) (hne : t.signed = true → x ≠ t.lo) :
    t.lo ≤ Int.tdiv x y ∧ Int.tdiv x y ≤ t.hi := by
  have hab : |Int.tdiv x y| ≤ |x| := by
    rw [Int.abs_eq_natAbs, Int.abs_eq_natAbs]
    exact_mod_cast Int.natAbs_tdiv_le_natAbs x y
  have h1 : |x| ≤ t.hi ∧ (t.signed = true ∨ 0 ≤ Int.tdiv x y) := by
    cases hs : t.signed
    · have h0 : t.lo = 0 := by unfold lo; rw [hs]; rfl
      rw [h0] at hx hy
      rw [abs_of_nonneg hx.1]
      exact ⟨hx.2, Or.inr (Int.tdiv_nonneg hx.1 hy)⟩
    · refine ⟨?_, Or.inl rfl⟩
      have := hne hs
      have e1 : t.lo = -2 ^ (t.bits - 1) := by unfold lo; rw [hs]; rfl
      have e2 : t.hi = 2 ^ (t.bits - 1) - 1 := by unfold hi; rw [hs]; rfl
      rw [abs_le]
      omega
  exact conv_le_hi _ (hab.trans h1.1) h1.2

theorem scalarDiv_exact {s t : IntTy} {x y : ℤ} (hx : (common s t).lo ≤ x ∧ x ≤ (common s t).hi) (hy : (common s t).lo ≤ y ∧ y ≤ (common s t).hi) (h0 : y ≠ 0)
    (hr : (common s t).lo ≤ Int.tdiv x y ∧ Int.tdiv x y ≤ (common s t).hi) : IntTy.scalarDiv s t x y = some (Int.tdiv x y) := by
  have hbits := bits_common s t
  unfold IntTy.scalarDiv
  simp only
  rw [conv_self (by omega) hx, conv_self (by omega) hy, if_neg h0, result_exact (by omega) hr]

end Vec
end Mathter
