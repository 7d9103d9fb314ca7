import Mathlib.Algebra.Order.BigOperators.Ring.Finset
import Mathlib.Data.Fin.VecNotation
import Mathlib.Tactic.FinCases
import Mathlib.Tactic.Positivity
import Verif.Lemmas.MachineInt

/-!
# Properties C107, C108: arithmetic and sums of vectors of machine integers
-/

namespace Mathter.Props
open Mathter IntTy
variable {c cA cB cC : Cfg} {dim : ℕ} {p p1 p2 : Bool}

/-- C107: the sum, difference or product of two vectors of integers, of the same or different types, with or without SIMD, gives the mathematical results,
provided that they and the operands fit in the type of the result. -/
theorem C107_exact_partial (f : ℤ → ℤ → ℤ) (s t : IntTy) (a : Vec cA ℤ dim p1) (b : Vec cB ℤ dim p2) (ha : ∀ i, InRange (common s t) (a.get i))
    (hb : ∀ i, InRange (common s t) (b.get i)) (hr : ∀ i, InRange (common s t) (f (a.get i) (b.get i))) :
    ∃ v : Vec cC ℤ dim (p1 && p2), Vec.opInt f s t a b = some v ∧ ∀ i, v.get i = f (a.get i) (b.get i) :=
  Vec.opInt_exact f s t a b (fun i => (inRange_iff _ _).1 (ha i)) (fun i => (inRange_iff _ _).1 (hb i)) fun i => (inRange_iff _ _).1 (hr i)

/-- C107: more generally, whenever the C++ operator is defined for each pair of elements, the operator on vectors gives these results. -/
theorem C107_elementwise (f : ℤ → ℤ → ℤ) (s t : IntTy) (a : Vec cA ℤ dim p1) (b : Vec cB ℤ dim p2) (ha : ∀ i, InRange s (a.get i))
    (hb : ∀ i, InRange t (b.get i)) (r : Fin dim → ℤ) (hr : ∀ i, IntTy.scalarOp f s t (a.get i) (b.get i) = some (r i)) :
    ∃ v : Vec cC ℤ dim (p1 && p2), Vec.opInt f s t a b = some v ∧ ∀ i, v.get i = r i :=
  Vec.opInt_scalar f s t a b (fun i => (inRange_iff _ _).1 (ha i)) (fun i => (inRange_iff _ _).1 (hb i)) r hr

/-- C107: if the result is unsigned, sums, differences and products are always defined, modulo `2 ^ bits`. -/
theorem C107_unsigned {f : ℤ → ℤ → ℤ} (hf : f = (· + ·) ∨ f = (· - ·) ∨ f = (· * ·)) (s t : IntTy) (hu : (common s t).signed = false)
    (a : Vec cA ℤ dim p1) (b : Vec cB ℤ dim p2) :
    ∃ v : Vec cC ℤ dim (p1 && p2), Vec.opInt f s t a b = some v ∧ ∀ i, v.get i = f (a.get i) (b.get i) % 2 ^ (common s t).bits :=
  Vec.opInt_unsigned hf s t hu a b

private theorem narrow_range {t : IntTy} (ht : t ∈ [i8, u8, i16]) {x : ℤ} (hx : InRange t x) : -2 ^ 15 ≤ x ∧ x < 2 ^ 15 := by
  fin_cases ht <;> simp [InRange, i8, u8, i16] at hx <;> omega

/-- C107: for small integer types the results are of type `int` and always exact. -/
theorem C107_narrow {f : ℤ → ℤ → ℤ} (hf : f = (· + ·) ∨ f = (· - ·) ∨ f = (· * ·)) {s t : IntTy} (hs : s ∈ [i8, u8, i16]) (ht : t ∈ [i8, u8, i16])
    (a : Vec cA ℤ dim p1) (b : Vec cB ℤ dim p2) (ha : ∀ i, InRange s (a.get i)) (hb : ∀ i, InRange t (b.get i)) :
    common s t = i32 ∧ ∃ v : Vec cC ℤ dim (p1 && p2), Vec.opInt f s t a b = some v ∧ ∀ i, v.get i = f (a.get i) (b.get i) := by
  have hc : common s t = i32 := by fin_cases hs <;> fin_cases ht <;> rfl
  refine ⟨hc, C107_exact_partial f s t a b ?_ ?_ ?_⟩ <;> intro i <;> rw [hc] <;> have h1 := narrow_range hs (ha i) <;> have h2 := narrow_range ht (hb i)
  · simp only [InRange, i32, if_true]; omega
  · simp only [InRange, i32, if_true]; omega
  · have h3 : |a.get i * b.get i| ≤ 2 ^ 15 * 2 ^ 15 := by
      rw [abs_mul]
      exact mul_le_mul (abs_le.2 ⟨by omega, by omega⟩) (abs_le.2 ⟨by omega, by omega⟩) (abs_nonneg _) (by norm_num)
    have h4 := abs_le.1 h3
    simp only [InRange, i32, if_true]
    rcases hf with rfl | rfl | rfl <;> simp only <;> omega

/-- C107: unary minus gives `-x` of each element, of the promoted type; unsigned types wrap around. -/
theorem C107_negate (t : IntTy) (h1 : 1 ≤ t.bits) (a : Vec cA ℤ dim p) (ha : ∀ i, InRange t (a.get i))
    (hs : (promote t).signed = true → ∀ i, InRange (promote t) (-a.get i)) :
    ∃ v : Vec cC ℤ dim (p && p), Vec.negInt (cB := cB) t a = some v ∧
      ∀ i, v.get i = if (promote t).signed then -a.get i else -a.get i % 2 ^ (promote t).bits := by
  have hpp : common t (promote t) = promote t := by
    have h : promote (promote t) = promote t := by
      unfold promote
      split
      · rfl
      · rfl
    unfold common usual
    rw [h]
    simp
  have hpb : 32 ≤ (promote t).bits := by rw [← hpp]; exact bits_common _ _
  have hpos : (1 : ℤ) ≤ 2 ^ ((promote t).bits - 1) := one_le_pow₀ (by norm_num)
  unfold Vec.negInt
  cases hsg : (promote t).signed
  · rw [result_unsigned hsg, Option.bind_some]
    obtain ⟨v, hv, hg⟩ := Vec.opInt_unsigned (f := (· * ·)) (cC := cC) (Or.inr (Or.inr rfl)) t (promote t) (by rw [hpp]; exact hsg) a
      (Vec.fill (-1 % 2 ^ (promote t).bits) : Vec cB ℤ dim p)
    refine ⟨v, hv, fun i => ?_⟩
    rw [hg i, Vec.get_fill, hpp]
    simp only [Bool.false_eq_true, if_false]
    rw [Int.mul_emod, Int.emod_emod_of_dvd _ (dvd_refl _), ← Int.mul_emod, mul_neg, mul_one]
  · have hm : (promote t).lo ≤ -1 ∧ -1 ≤ (promote t).hi := by
      unfold lo hi
      rw [hsg]
      simp only [if_true]
      omega
    rw [result_exact (by omega) hm, Option.bind_some]
    obtain ⟨v, hv, hg⟩ := C107_exact_partial (cC := cC) (· * ·) t (promote t) a (Vec.fill (-1) : Vec cB ℤ dim p) (fun i => by
        rw [hpp]
        have := hs hsg i
        have := ha i
        rw [inRange_iff] at *
        unfold promote at *
        split
        · rename_i h32
          rw [if_pos h32] at hsg
          have := Vec.common_range h1 this
          have e : common t t = i32 := by
            unfold common promote
            rw [if_pos h32]
            rfl
          rwa [e] at this
        · exact this) (fun i => by rw [hpp, Vec.get_fill, inRange_iff]; exact hm)
      (fun i => by rw [hpp, Vec.get_fill]; simpa using hs hsg i)
    refine ⟨v, hv, fun i => ?_⟩
    rw [hg i, Vec.get_fill]
    simp

/-- C107: division truncates, provided that no divisor is zero, no result overflows, and no padding lane of the dividend holds the smallest value. -/
theorem C107_divide_partial (s t : IntTy) (a : Vec cA ℤ dim p1) (b : Vec cB ℤ dim p2) (ha : ∀ i, InRange (common s t) (a.get i))
    (hb : ∀ i, InRange (common s t) (b.get i)) (h0 : ∀ i, b.get i ≠ 0) (hr : ∀ i, InRange (common s t) (Int.tdiv (a.get i) (b.get i)))
    (hpad : ∀ l, dim ≤ l.val → InRange (common s t) (a.lanes l) ∧ ((common s t).signed = true → a.lanes l ≠ -2 ^ ((common s t).bits - 1))) :
    ∃ v : Vec cC ℤ dim (p1 && p2), Vec.divInt s t a b = some v ∧ ∀ i, v.get i = Int.tdiv (a.get i) (b.get i) := by
  simp only [inRange_iff] at ha hb hr hpad
  have hel : ∀ i, IntTy.scalarDiv s t (a.get i) (b.get i) = some (Int.tdiv (a.get i) (b.get i)) := fun i => Vec.scalarDiv_exact (ha i) (hb i) (h0 i) (hr i)
  unfold Vec.divInt
  split
  · rename_i h
    have hall : ∀ l, ∃ x, IntTy.scalarDiv s t (a.load h.1 l) (Vec.fillMaskedWithFirst dim (b.load h.2.1) l) = some x := by
      intro l
      by_cases hl : l.val < dim
      · have e : Vec.fillMaskedWithFirst dim (b.load h.2.1) l = b.get ⟨l.val, hl⟩ := by
          unfold Vec.fillMaskedWithFirst
          rw [if_pos hl]; rfl
        rw [e]
        exact ⟨_, hel ⟨l.val, hl⟩⟩
      · have hdim : 0 < dim := by
          by_contra hd
          have : dim = 0 := by omega
          subst this
          exact absurd l.isLt (by simp [batchSize])
        have e : Vec.fillMaskedWithFirst dim (b.load h.2.1) l = b.get ⟨0, hdim⟩ := by
          unfold Vec.fillMaskedWithFirst
          rw [if_neg hl]; rfl
        rw [e]
        have hp := hpad (Fin.cast (storageSize_of_batched h.1).symm l) (not_lt.1 hl)
        have hlo : (common s t).signed = true → (common s t).lo = -2 ^ ((common s t).bits - 1) := by
          intro hs
          unfold lo
          rw [hs]; rfl
        exact ⟨_, Vec.scalarDiv_exact hp.1 (hb _) (h0 _) (Vec.tdiv_range hp.1 (hb _).1 fun hs => by rw [hlo hs]; exact hp.2 hs)⟩
    choose x hx using hall
    refine ⟨Vec.store h.2.2.1 (Vec.fillMasked dim x 0), by rw [Vec.seqFin_eq_some.2 hx]; rfl, fun i => ?_⟩
    rw [Vec.get_store]
    have e1 : Vec.fillMasked dim x 0 ⟨i.val, Nat.lt_of_lt_of_le i.isLt (le_batchSize _ _)⟩ = x ⟨i.val, Nat.lt_of_lt_of_le i.isLt (le_batchSize _ _)⟩ := by
      unfold Vec.fillMasked
      split
      · rfl
      · exact if_pos i.isLt
    have e2 := hx ⟨i.val, Nat.lt_of_lt_of_le i.isLt (le_batchSize _ _)⟩
    have e3 : Vec.fillMaskedWithFirst dim (b.load h.2.1) ⟨i.val, Nat.lt_of_lt_of_le i.isLt (le_batchSize _ _)⟩ = b.get i := by
      unfold Vec.fillMaskedWithFirst
      rw [if_pos i.isLt]; rfl
    rw [e3, Vec.load_get, hel i] at e2
    rw [e1, ← Option.some.inj e2]
  · exact ⟨_, by rw [Vec.seqFin_eq_some.2 hel]; rfl, fun i => Vec.get_ofFn _ _⟩

/-- C107 is violated for signed types: whether `INT_MAX + 1` is defined depends on SIMD. -/
theorem C107_overflow_violated :
    (∃ v : Vec Cfg.sse ℤ 4 false, Vec.opInt (cC := Cfg.sse) (· + ·) i32 i32 (Vec.ofFn ![2 ^ 31 - 1, 0, 0, 0] : Vec Cfg.sse ℤ 4 false)
      (Vec.ofFn ![1, 0, 0, 0] : Vec Cfg.sse ℤ 4 false) = some v ∧ v.get 0 = -2 ^ 31) ∧
    Vec.opInt (cC := Cfg.scalar) (· + ·) i32 i32 (Vec.ofFn ![2 ^ 31 - 1, 0, 0, 0] : Vec Cfg.scalar ℤ 4 false)
      (Vec.ofFn ![1, 0, 0, 0] : Vec Cfg.scalar ℤ 4 false) = none := by
  constructor
  · refine ⟨_, by unfold Vec.opInt; rw [dif_pos (by decide)], ?_⟩
    rw [Vec.get_store]
    decide
  · decide

/-- C107 is violated for `std::uint16_t`: its products are computed as `int` and may overflow, in every configuration. -/
theorem C107_u16_violated : InRange u16 65535 ∧
    ∀ cA cB cC : Cfg, Vec.opInt (cC := cC) (· * ·) u16 u16 (Vec.fill 65535 : Vec cA ℤ 2 false) (Vec.fill 65535 : Vec cB ℤ 2 false) = none := by
  refine ⟨by unfold InRange; decide, fun cA cB cC => ?_⟩
  unfold Vec.opInt
  rw [dif_neg (by intro h; exact absurd h.2.2.2.1 (by decide))]
  unfold Vec.seqFin
  rw [dif_neg]
  · rfl
  · intro h
    have := h 0
    simp only [Vec.get_fill] at this
    exact absurd this (by decide)

/-- C107 is violated for divisions: with SIMD, `v / -1` traps for the harmless vector `(1, 2, 3)` if its padding lane still holds the value `INT_MIN`
with which the vector was filled earlier; without SIMD it does not. -/
theorem C107_padding_violated :
    let v (c : Cfg) : Vec c ℤ 3 false := ((((Vec.fill (-2 ^ 31) : Vec c ℤ 3 false).set 0 1).set 1 2).set 2 3)
    (∀ c, ((v c).get 0, (v c).get 1, (v c).get 2) = (1, 2, 3)) ∧
    Vec.divScalarInt (cB := Cfg.sse) (cC := Cfg.sse) i32 i32 (v Cfg.sse) (-1) = none ∧
    Vec.divInt (cC := Cfg.sse) i32 i32 (v Cfg.sse) (Vec.ofFn ![-1, 1, 1] : Vec Cfg.sse ℤ 3 false) = none ∧
    (Vec.divScalarInt (cB := Cfg.scalar) (cC := Cfg.scalar) i32 i32 (v Cfg.scalar) (-1)).isSome = true := by
  refine ⟨fun c => ?_, ?_, ?_, ?_⟩
  · simp [Vec.get, Vec.set]
  · decide
  · decide
  · decide

/-! ## C108 -/

/-- C108: the sum of the elements is exact, in every configuration and order of summation, if the absolute values of the elements add up to a
representable number. -/
theorem C108_exact_partial (t : IntTy) (h1 : 1 ≤ t.bits) (tb : RTree (batchSize dim false)) (ts : RTree dim) (htb : tb.Valid) (hts : ts.Valid)
    (v : Vec c ℤ dim p) (hv : ∀ i, InRange t (v.get i)) (hs : InRange t (∑ i, |v.get i|)) : v.sumInt t tb ts = some (∑ i, v.get i) :=
  Vec.sumInt_exact h1 tb ts htb hts v (fun i => (inRange_iff _ _).1 (hv i)) ((inRange_iff _ _).1 hs).2

/-- C108: for unsigned types and types smaller than `int`, `Sum` is always defined and gives the value of type `t` that is congruent to the sum. -/
theorem C108_modular (t : IntTy) (ht : t ∈ [i8, u8, i16, u16, u32, u64]) (tb : RTree (batchSize dim false)) (ts : RTree dim) (htb : tb.Valid) (hts : ts.Valid)
    (v : Vec c ℤ dim p) (hv : ∀ i, InRange t (v.get i)) :
    ∃ x, v.sumInt t tb ts = some x ∧ InRange t x ∧ (2 : ℤ) ^ t.bits ∣ x - ∑ i, v.get i := by
  have h1 : 1 ≤ t.bits := by fin_cases ht <;> decide
  have hm : t.bits ≤ 16 ∨ t.signed = false ∧ 32 ≤ t.bits := by fin_cases ht <;> decide
  exact ⟨_, Vec.sumInt_modular h1 hm tb ts htb hts v (fun i => (inRange_iff _ _).1 (hv i)), (inRange_iff _ _).2 (conv_range h1 _), conv_dvd _ _⟩

/-- C108: with SIMD, every sum that is representable is exact, even if partial sums are not. -/
theorem C108_simd (t : IntTy) (h1 : 1 ≤ t.bits) (tb : RTree (batchSize dim false)) (ts : RTree dim) (htb : tb.Valid) (h : isBatched c dim p = true)
    (v : Vec c ℤ dim p) (hv : ∀ i, InRange t (v.get i)) (hs : InRange t (∑ i, v.get i)) : v.sumInt t tb ts = some (∑ i, v.get i) := by
  rw [Vec.sumInt_batched h1 tb ts htb h v (fun i => (inRange_iff _ _).1 (hv i)), conv_self h1 ((inRange_iff _ _).1 hs)]

/-- C108 is violated for `int`: the sum of `INT_MAX`, `1`, `-1`, `0` is representable, but without SIMD it is undefined in reading order. -/
theorem C108_order_violated :
    let t : RTree 4 := .node (.node (.node (.leaf 0) (.leaf 1)) (.leaf 2)) (.leaf 3)
    t.Valid ∧ InRange i32 (2 ^ 31 - 1 + 1 + -1 + 0) ∧
    (Vec.ofFn ![2 ^ 31 - 1, 1, -1, 0] : Vec Cfg.scalar ℤ 4 false).sumInt i32 (dim := 4) t t = none ∧
    (Vec.ofFn ![2 ^ 31 - 1, 1, -1, 0] : Vec Cfg.sse ℤ 4 false).sumInt i32 (dim := 4) t t = some (2 ^ 31 - 1) := by
  refine ⟨?_, by unfold InRange; decide, by decide, by decide⟩
  unfold RTree.Valid
  decide

/-- C108: `Dot` is exact if the products and the sum of their absolute values are representable in the common type. -/
theorem C108_dot_partial (s t : IntTy) (tb : RTree (batchSize dim false)) (ts : RTree dim) (htb : tb.Valid) (hts : ts.Valid) (a : Vec cA ℤ dim p1)
    (b : Vec cB ℤ dim p2) (ha : ∀ i, InRange (common s t) (a.get i)) (hb : ∀ i, InRange (common s t) (b.get i))
    (hr : ∀ i, InRange (common s t) (a.get i * b.get i)) (hs : InRange (common s t) (∑ i, |a.get i * b.get i|)) :
    Vec.dotInt (cC := cC) s t tb ts a b = some (∑ i, a.get i * b.get i) := by
  obtain ⟨v, hv, hg⟩ := C107_exact_partial (cC := cC) (· * ·) s t a b ha hb hr
  unfold Vec.dotInt
  rw [hv, Option.bind_some, C108_exact_partial (common s t) (by have := bits_common s t; omega) tb ts htb hts v (fun i => by rw [hg]; exact hr i)]
  · simp only [hg]
  · simp only [hg]; exact hs

/-- C108: the inner product of vectors of bytes of fewer than 32768 elements is always exact. -/
theorem C108_dot_bytes {s t : IntTy} (hs : s ∈ [i8, u8]) (ht : t ∈ [i8, u8]) (hd : dim < 2 ^ 15) (tb : RTree (batchSize dim false)) (ts : RTree dim)
    (htb : tb.Valid) (hts : ts.Valid) (a : Vec cA ℤ dim p1) (b : Vec cB ℤ dim p2) (ha : ∀ i, InRange s (a.get i)) (hb : ∀ i, InRange t (b.get i)) :
    Vec.dotInt (cC := cC) s t tb ts a b = some (∑ i, a.get i * b.get i) := by
  have hc : common s t = i32 := by fin_cases hs <;> fin_cases ht <;> rfl
  have hbyte : ∀ {t : IntTy}, t ∈ [i8, u8] → ∀ {x : ℤ}, InRange t x → |x| ≤ 2 ^ 8 := by
    intro t ht x hx
    fin_cases ht <;> simp [InRange, i8, u8] at hx <;> rw [abs_le] <;> omega
  have hm : ∀ i, |a.get i * b.get i| ≤ 2 ^ 16 := by
    intro i
    rw [abs_mul]
    exact (mul_le_mul (hbyte hs (ha i)) (hbyte ht (hb i)) (abs_nonneg _) (by norm_num)).trans (by norm_num)
  refine C108_dot_partial s t tb ts htb hts a b ?_ ?_ ?_ ?_
  · intro i; rw [hc]; have := abs_le.1 (hbyte hs (ha i)); simp only [InRange, i32, if_true]; omega
  · intro i; rw [hc]; have := abs_le.1 (hbyte ht (hb i)); simp only [InRange, i32, if_true]; omega
  · intro i; rw [hc]; have := abs_le.1 (hm i); simp only [InRange, i32, if_true]; omega
  · rw [hc]
    have h1 : ∑ i, |a.get i * b.get i| ≤ dim * 2 ^ 16 := (Finset.sum_le_sum fun i _ => hm i).trans (by simp)
    have h0 : 0 ≤ ∑ i, |a.get i * b.get i| := Finset.sum_nonneg fun i _ => abs_nonneg _
    simp only [InRange, i32, if_true]
    constructor
    · omega
    · refine lt_of_le_of_lt h1 ?_
      have : (dim : ℤ) < 2 ^ 15 := by exact_mod_cast hd
      omega

/-- C108: the differences of unsigned elements wrap around, yet the squared distance is exact whenever it is representable. -/
theorem C108_distance (s t : IntTy) (hu : (common s t).signed = false) (tb : RTree (batchSize dim false)) (ts : RTree dim) (htb : tb.Valid) (hts : ts.Valid)
    (a : Vec cA ℤ dim p1) (b : Vec cB ℤ dim p2) (hs : InRange (common s t) (∑ i, (a.get i - b.get i) ^ 2)) :
    Vec.distSqInt (cC := cC) s t tb ts a b = some (∑ i, (a.get i - b.get i) ^ 2) := by
  have hbits := bits_common s t
  have hb1 : 1 ≤ (common s t).bits := by omega
  have hcc : common (common s t) (common s t) = common s t := by
    have h : promote (common s t) = common s t := by
      rw [promote, if_neg (by omega)]
    rw [common, h, usual]
    simp
  obtain ⟨v, hv, hg⟩ := Vec.opInt_unsigned (f := (· - ·)) (cC := cC) (Or.inr (Or.inl rfl)) s t hu a b
  obtain ⟨q, hq, hgq⟩ := Vec.opInt_unsigned (f := (· * ·)) (cC := cC) (Or.inr (Or.inr rfl)) (common s t) (common s t) (by rw [hcc]; exact hu) v v
  rw [hcc] at hgq
  have hrange : ∀ i, (common s t).lo ≤ q.get i ∧ q.get i ≤ (common s t).hi := by
    intro i
    rw [hgq, ← conv_unsigned hu]
    exact conv_range hb1 _
  unfold Vec.distSqInt Vec.dotInt
  rw [hv, Option.bind_some, hq, Option.bind_some, hcc, Vec.sumInt_modular hb1 (Or.inr ⟨hu, hbits⟩) tb ts htb hts q hrange]
  congr 1
  refine conv_unique hb1 ((inRange_iff _ _).1 hs) ?_
  rw [← Finset.sum_sub_distrib]
  refine Finset.dvd_sum fun i _ => ?_
  have h1 : (2 : ℤ) ^ (common s t).bits ∣ v.get i - (a.get i - b.get i) := by
    rw [hg, ← conv_unsigned hu]
    exact conv_dvd _ _
  have h2 : (2 : ℤ) ^ (common s t).bits ∣ q.get i - v.get i * v.get i := by
    rw [hgq, ← conv_unsigned hu]
    exact conv_dvd _ _
  have h3 := dvd_add h2 (op_dvd (f := (· * ·)) (Or.inr (Or.inr rfl)) h1 h1)
  have e : q.get i - v.get i * v.get i + (v.get i * v.get i - (a.get i - b.get i) * (a.get i - b.get i)) = q.get i - (a.get i - b.get i) ^ 2 := by ring
  rwa [e] at h3

/-! ## Examples -/

example : common i8 u8 = i32 ∧ common i32 u32 = u32 ∧ common u32 i64 = i64 ∧ common i64 u64 = u64 ∧ common u16 u32 = u32 := by decide

/-- Mixed operands that meet the hypotheses of `C107_exact_partial` and `C107_divide_partial`. -/
example : (∀ i, InRange (common i32 i64) ((Vec.ofFn ![-7, 2 ^ 31 - 1] : Vec Cfg.sse ℤ 2 false).get i)) ∧
    ∀ i, InRange (common i32 i64) ((Vec.ofFn ![-7, 2 ^ 31 - 1] : Vec Cfg.sse ℤ 2 false).get i * (Vec.ofFn ![5, 2 ^ 31 - 1] : Vec Cfg.sse ℤ 2 false).get i) := by
  simp only [InRange, Vec.get_ofFn]
  decide

/-- The difference of `1u` and `3u` wraps around, and the distance is right all the same. -/
example (tb : RTree (batchSize 2 false)) (ts : RTree 2) (htb : tb.Valid) (hts : ts.Valid) :
    (∃ v : Vec Cfg.sse ℤ 2 false, Vec.opInt (cC := Cfg.sse) (· - ·) u32 u32 (Vec.ofFn ![1, 7] : Vec Cfg.sse ℤ 2 false) (Vec.ofFn ![3, 4] : Vec Cfg.sse ℤ 2 false) =
      some v ∧ v.get 0 = 2 ^ 32 - 2) ∧
    Vec.distSqInt (cC := Cfg.sse) u32 u32 tb ts (Vec.ofFn ![1, 7] : Vec Cfg.sse ℤ 2 false) (Vec.ofFn ![3, 4] : Vec Cfg.sse ℤ 2 false) = some 13 := by
  constructor
  · obtain ⟨v, hv, hg⟩ := C107_unsigned (cC := Cfg.sse) (f := (· - ·)) (Or.inr (Or.inl rfl)) u32 u32 rfl (Vec.ofFn ![1, 7] : Vec Cfg.sse ℤ 2 false)
      (Vec.ofFn ![3, 4] : Vec Cfg.sse ℤ 2 false)
    exact ⟨v, hv, by rw [hg 0, Vec.get_ofFn, Vec.get_ofFn]; decide⟩
  · rw [C108_distance u32 u32 rfl tb ts htb hts]
    · simp [Fin.sum_univ_two]
    · simp only [Fin.sum_univ_two, Vec.get_ofFn]
      unfold InRange
      decide

/-- Division rounds towards zero; the padding lane of a freshly constructed vector does no harm. -/
example : ∃ v : Vec Cfg.sse ℤ 3 false, Vec.divInt (cC := Cfg.sse) i32 i32 (Vec.ofFn ![-7, 8, -2 ^ 31] : Vec Cfg.sse ℤ 3 false)
    (Vec.ofFn ![-2, -3, 5] : Vec Cfg.sse ℤ 3 false) = some v ∧ (v.get 0, v.get 1, v.get 2) = (3, -2, -429496729) := by
  obtain ⟨v, hv, hg⟩ := C107_divide_partial (cC := Cfg.sse) i32 i32 (Vec.ofFn ![-7, 8, -2 ^ 31] : Vec Cfg.sse ℤ 3 false)
    (Vec.ofFn ![-2, -3, 5] : Vec Cfg.sse ℤ 3 false) (by simp only [InRange, Vec.get_ofFn]; decide) (by simp only [InRange, Vec.get_ofFn]; decide)
    (by simp only [Vec.get_ofFn]; decide) (by simp only [InRange, Vec.get_ofFn]; decide) (by
      intro l hl
      simp only [Vec.ofFn, dif_neg (not_lt.2 hl), InRange]
      decide)
  exact ⟨v, hv, by simp only [hg, Vec.get_ofFn]; decide⟩

/-- Sums of bytes wrap around. -/
example (tb : RTree (batchSize 2 false)) (ts : RTree 2) (htb : tb.Valid) (hts : ts.Valid) :
    (Vec.ofFn ![200, 100] : Vec Cfg.scalar ℤ 2 false).sumInt u8 tb ts = some 44 := by
  obtain ⟨x, hx, hr, hd⟩ := C108_modular u8 (by decide) tb ts htb hts (Vec.ofFn ![200, 100] : Vec Cfg.scalar ℤ 2 false)
    (by simp only [InRange, Vec.get_ofFn]; decide)
  rw [hx]
  simp only [Fin.sum_univ_two, Vec.get_ofFn] at hd
  simp [InRange, u8] at hr hd
  have : x = 44 := by omega
  rw [this]

end Mathter.Props
