import Mathlib.Tactic.NormNum
import Verif.Lemmas.Vector

/-!
# Properties C01, C02, C11, C12: elementwise arithmetic, division, homogeneous conversion, constructors
-/

namespace Mathter.Props
open Mathter
universe u v w
variable {K : Type u} {A : Type u} {B : Type v} {C : Type w}
variable {c c' cA cB cC cD cA' cB' cC' : Cfg} {dim : ℕ} {p p1 p2 p3 p' p1' p2' : Bool}

/-! ## C01 -/

/-- C01: every unary elementwise operation (`Abs`, `Real`, `Imag`, `Conj`, `Sqrt`, …) acts on element `i` alone, in every
configuration, on both code paths, whatever the padding holds. -/
theorem C01_unary [Zero B] (conv : Bool) (f : A → B) (a : Vec cA A dim p) (i : Fin dim) :
    (Vec.doUnary conv f a : Vec cB B dim p).get i = f (a.get i) := by simp

/-- C01: binary operations, mixed scalar types and packings included. -/
theorem C01_binary [Zero C] (conv : Bool) (f : A → B → C) (a : Vec cA A dim p1) (b : Vec cB B dim p2) (i : Fin dim) :
    (Vec.doBinary conv f a b : Vec cC C dim (p1 && p2)).get i = f (a.get i) (b.get i) := by simp

/-- C01: ternary operations. -/
theorem C01_ternary {D : Type*} [Zero D] (conv : Bool) (f : A → B → C → D) (a : Vec cA A dim p1) (b : Vec cB B dim p2)
    (d : Vec cC C dim p3) (i : Fin dim) :
    (Vec.doTernary conv f a b d : Vec cD D dim (p1 && p2 && p3)).get i = f (a.get i) (b.get i) (d.get i) := by simp

theorem C01_add [AddMonoid K] (conv : Bool) (a : Vec c K dim p1) (b : Vec c K dim p2) (i : Fin dim) :
    (Vec.add conv a b).get i = a.get i + b.get i := by simp [Vec.add]

theorem C01_sub [AddGroup K] (conv : Bool) (a : Vec c K dim p1) (b : Vec c K dim p2) (i : Fin dim) :
    (Vec.sub conv a b).get i = a.get i - b.get i := by simp [Vec.sub]

theorem C01_mul [MulZeroClass K] (conv : Bool) (a : Vec c K dim p1) (b : Vec c K dim p2) (i : Fin dim) :
    (Vec.mul conv a b).get i = a.get i * b.get i := by simp [Vec.mul]

theorem C01_neg [Ring K] (conv : Bool) (a : Vec c K dim p) (i : Fin dim) : (Vec.neg conv a).get i = -a.get i := by
  simp [Vec.neg, Vec.opScalar]

theorem C01_vec_scalar [Zero K] (conv : Bool) (f : K → K → K) (a : Vec c K dim p) (x : K) (i : Fin dim) :
    (Vec.opScalar conv f a x).get i = f (a.get i) x := by simp [Vec.opScalar]

theorem C01_scalar_vec [Zero K] (conv : Bool) (f : K → K → K) (a : Vec c K dim p) (x : K) (i : Fin dim) :
    (Vec.scalarOp conv f x a).get i = f x (a.get i) := by simp [Vec.scalarOp]

theorem C01_fma [Semiring K] (conv : Bool) (a : Vec c K dim p1) (b : Vec c K dim p2) (d : Vec c K dim p3) (i : Fin dim) :
    (Vec.fma conv a b d).get i = a.get i * b.get i + d.get i := by simp [Vec.fma]

/-- C01: `FMTA(a,b,c,d)` is `a*b + c*d` in exact arithmetic. -/
theorem C01_fmta [CommRing K] (conv : Bool) (a b x d : Vec c K dim p) (i : Fin dim) :
    (Vec.fmta conv a b x d).get i = a.get i * b.get i + x.get i * d.get i := by
  simp [Vec.fmta, Vec.fma, Vec.mul, Vec.neg, Vec.opScalar, Vec.add]
  ring

/-- C01: the visible result of an operation is the same in any two configurations/packings whose operands agree on the
visible elements (padding may differ arbitrarily). -/
theorem C01_config_independent [Zero C] (conv conv' : Bool) (f : A → B → C)
    (a : Vec cA A dim p1) (b : Vec cB B dim p2) (a' : Vec cA' A dim p1') (b' : Vec cB' B dim p2')
    (ha : ∀ i, a.get i = a'.get i) (hb : ∀ i, b.get i = b'.get i) (i : Fin dim) :
    (Vec.doBinary conv f a b : Vec cC C dim (p1 && p2)).get i =
      (Vec.doBinary conv' f a' b' : Vec cC' C dim (p1' && p2')).get i := by
  simp [ha, hb]

/-- The hypotheses are met by vectors whose padding differs: 3 visible lanes, 4 stored ones, against a packed vector. -/
example : ∃ (a : Vec Cfg.sse ℤ 3 false) (a' : Vec Cfg.sse ℤ 3 false) (a'' : Vec Cfg.scalar ℤ 3 true),
    a ≠ a' ∧ (∀ i, a.get i = a'.get i) ∧ (∀ i, a.get i = a''.get i) := by
  refine ⟨⟨fun l => if l.val = 3 then 7 else l.val⟩, ⟨fun l => l.val⟩, ⟨fun l => l.val⟩, ?_, ?_, ?_⟩
  · intro h
    have h3 := congrArg (fun v : Vec Cfg.sse ℤ 3 false => v.lanes ⟨3, by decide⟩) h
    revert h3
    decide
  · decide
  · decide

/-! ## C02 -/

private theorem sdiv_isSome [DecidableEq K] [Zero K] [Div K] (x y : K) : (Vec.sdiv x y).isSome = true ↔ y ≠ 0 := by
  unfold Vec.sdiv; split <;> simp_all

private theorem sdiv_eq_some [DecidableEq K] [Zero K] [Div K] {x y z : K} (h : Vec.sdiv x y = some z) : x / y = z := by
  unfold Vec.sdiv at h; split at h
  · cases h
  · exact Option.some.inj h

/-- C02: a vector quotient is defined (no integer trap) exactly when all visible divisor elements are nonzero. -/
theorem C02_div_defined_iff [DecidableEq K] [Zero K] [Div K] (conv : Bool) (a : Vec c K dim p1) (b : Vec c K dim p2) :
    (Vec.div conv a b).isSome = true ↔ ∀ i : Fin dim, b.get i ≠ 0 := by
  unfold Vec.div
  split
  · rename_i h
    simp only [Option.isSome_map, Vec.dividesSafe, Vec.seqFin_isSome, sdiv_isSome]
    constructor
    · intro H i
      have := H ⟨i.val, Nat.lt_of_lt_of_le i.isLt (le_batchSize _ _)⟩
      simpa [Vec.fillMaskedWithFirst, Vec.load_of_lt] using this
    · intro H l
      unfold Vec.fillMaskedWithFirst
      split
      · rename_i hl; rw [Vec.load_of_lt _ _ _ hl]; exact H _
      · rename_i hl
        have h0 : 0 < dim := by
          rcases Nat.eq_zero_or_pos dim with h0 | h0
          · subst h0
            have := l.isLt
            simp [batchSize] at this
          · exact h0
        rw [Vec.load_of_lt _ _ _ (by simpa using h0)]; exact H _
  · simp only [Option.isSome_map, Vec.seqFin_isSome, sdiv_isSome]

/-- C02: visible elements of a defined quotient, and its zero padding. -/
theorem C02_div_value [DecidableEq K] [Zero K] [Div K] (conv : Bool) (a : Vec c K dim p1) (b : Vec c K dim p2)
    (r : Vec c K dim (p1 && p2)) (hr : Vec.div conv a b = some r) :
    (∀ i, r.get i = a.get i / b.get i) ∧ ∀ l : Fin (storageSize c dim (p1 && p2)), dim ≤ l.val → r.lanes l = 0 := by
  unfold Vec.div at hr
  split at hr
  · rename_i h
    rw [Option.map_eq_some_iff] at hr
    obtain ⟨q, hq, rfl⟩ := hr
    unfold Vec.dividesSafe at hq
    rw [Option.map_eq_some_iff] at hq
    obtain ⟨s, hs, rfl⟩ := hq
    rw [Vec.seqFin_eq_some] at hs
    constructor
    · intro i
      have := sdiv_eq_some (hs ⟨i.val, Nat.lt_of_lt_of_le i.isLt (le_batchSize _ _)⟩)
      rw [Vec.get_store]
      unfold Vec.fillMasked
      split
      · rw [← this]; simp [Vec.fillMaskedWithFirst, Vec.load_of_lt]
      · simp [← this, Vec.fillMaskedWithFirst, Vec.load_of_lt]
    · intro l hl
      unfold Vec.store Vec.fillMasked
      have hll := l.isLt
      have hss := storageSize_of_batched h.2.2.1
      dsimp only
      split
      · omega
      · exact if_neg (by simpa using hl)
  · rename_i h
    rw [Option.map_eq_some_iff] at hr
    obtain ⟨q, hq, rfl⟩ := hr
    rw [Vec.seqFin_eq_some] at hq
    constructor
    · intro i; rw [Vec.get_ofFn]; exact (sdiv_eq_some (hq i)).symm
    · intro l hl
      unfold Vec.ofFn
      dsimp only
      rw [dif_neg (by omega)]

/-- C02: division by a scalar is defined exactly when the scalar is nonzero, and acts elementwise. -/
theorem C02_div_scalar [DecidableEq K] [Zero K] [Div K] (conv : Bool) (a : Vec c K dim p) (x : K) (hd : 0 < dim) :
    ((Vec.divScalar conv a x).isSome = true ↔ x ≠ 0) ∧
    ∀ r, Vec.divScalar conv a x = some r → ∀ i, r.get i = a.get i / x := by
  unfold Vec.divScalar
  dsimp only
  split
  · rename_i h
    have hfill : ∀ l, (Vec.fill x : Vec c K dim p).load h.1 l = x := by
      intro l; unfold Vec.fill; simp [h.1, Vec.load]
    constructor
    · simp only [Option.isSome_map, Vec.seqFin_isSome, sdiv_isSome, hfill]
      constructor
      · intro H; exact H ⟨0, Nat.lt_of_lt_of_le hd (le_batchSize _ _)⟩
      · intro H _; exact H
    · intro r hr i
      rw [Option.map_eq_some_iff] at hr
      obtain ⟨q, hq, rfl⟩ := hr
      rw [Vec.seqFin_eq_some] at hq
      have := sdiv_eq_some (hq ⟨i.val, Nat.lt_of_lt_of_le i.isLt (le_batchSize _ _)⟩)
      rw [Vec.get_store, ← this, hfill, Vec.load_eq_get]
  · constructor
    · simp only [Option.isSome_map, Vec.seqFin_isSome, sdiv_isSome, Vec.get_fill]
      constructor
      · intro H; exact H ⟨0, hd⟩
      · intro H _; exact H
    · intro r hr i
      rw [Option.map_eq_some_iff] at hr
      obtain ⟨q, hq, rfl⟩ := hr
      rw [Vec.seqFin_eq_some] at hq
      rw [Vec.get_ofFn, ← sdiv_eq_some (hq i), Vec.get_fill]

/-- C02: a scalar divided by a vector. -/
theorem C02_scalar_div [DecidableEq K] [Zero K] [Div K] (conv : Bool) (x : K) (b : Vec c K dim p) :
    ((Vec.scalarDiv conv x b).isSome = true ↔ ∀ i, b.get i ≠ 0) ∧
    ∀ r, Vec.scalarDiv conv x b = some r → ∀ i, r.get i = x / b.get i := by
  constructor
  · exact C02_div_defined_iff _ _ _
  · intro r hr i
    have := (C02_div_value _ _ _ _ hr).1 i
    rwa [Vec.get_fill] at this

/-- Non-vacuity: an integer 3-vector divisor whose padding lane is zero (4 stored lanes) can be divided by. -/
example : ∃ b : Vec Cfg.sse ℤ 3 false, (∀ i, b.get i ≠ 0) ∧ b.lanes ⟨3, by decide⟩ = 0 :=
  ⟨⟨fun l => if l.val = 3 then 0 else 2⟩, by decide, by decide⟩

/-! ## C11 -/

/-- C11: up-conversion appends 1. -/
theorem C11_homogenize [Zero K] [One K] (v : Vec c K dim p2) :
    (∀ i : Fin dim, (Vec.homogenize v : Vec c K (dim + 1) p).get i.castSucc = v.get i) ∧
      (Vec.homogenize v : Vec c K (dim + 1) p).get (Fin.last dim) = 1 := by
  constructor
  · intro i; simp [Vec.homogenize]
  · simp [Vec.homogenize]

/-- C11: down-conversion is defined exactly when the last coordinate is nonzero, and divides by it. -/
theorem C11_dehomogenize [DecidableEq K] [Zero K] [Div K] (v : Vec c K (dim + 1) p2) (hd : 0 < dim) :
    ((Vec.dehomogenize v : Option (Vec c K dim p)).isSome = true ↔ v.get (Fin.last dim) ≠ 0) ∧
    ∀ r : Vec c K dim p, Vec.dehomogenize v = some r → ∀ i, r.get i = v.get i.castSucc / v.get (Fin.last dim) := by
  unfold Vec.dehomogenize
  dsimp only
  split
  · rename_i h
    constructor
    · simp only [Option.isSome_map, Vec.seqFin_isSome, sdiv_isSome]
      constructor
      · intro H; exact H ⟨0, Nat.lt_of_lt_of_le hd (le_batchSize _ _)⟩
      · intro H _; exact H
    · intro r hr i
      rw [Option.map_eq_some_iff] at hr
      obtain ⟨q, hq, rfl⟩ := hr
      rw [Vec.seqFin_eq_some] at hq
      have := sdiv_eq_some (hq ⟨i.val, Nat.lt_of_lt_of_le i.isLt (le_batchSize _ _)⟩)
      rw [Vec.get_store, ← this, Vec.load_eq_get, Vec.get_ofFn]
  · constructor
    · simp only [Option.isSome_map, Vec.seqFin_isSome, sdiv_isSome]
      constructor
      · intro H; exact H ⟨0, hd⟩
      · intro H _; exact H
    · intro r hr i
      rw [Option.map_eq_some_iff] at hr
      obtain ⟨q, hq, rfl⟩ := hr
      rw [Vec.seqFin_eq_some] at hq
      rw [Vec.get_ofFn, ← sdiv_eq_some (hq i), Vec.get_ofFn]

/-- C11: down after up is the identity on visible elements. -/
theorem C11_roundtrip [DecidableEq K] [Field K] (v : Vec c K dim p2) (hd : 0 < dim) :
    ∃ r : Vec c K dim p, Vec.dehomogenize (Vec.homogenize v : Vec c K (dim + 1) p') = some r ∧ ∀ i, r.get i = v.get i := by
  have h := C11_dehomogenize (p := p) (Vec.homogenize v : Vec c K (dim + 1) p') hd
  have h1 := C11_homogenize (p := p') v
  have hs := h.1.2 (by rw [h1.2]; exact one_ne_zero)
  obtain ⟨r, hr⟩ := Option.isSome_iff_exists.1 hs
  refine ⟨r, hr, fun i => ?_⟩
  rw [h.2 r hr i, h1.1, h1.2, div_one]

/-- C11: down-conversion does not change when the homogeneous vector is scaled by a nonzero factor. -/
theorem C11_scale_invariant [DecidableEq K] [Field K] (conv : Bool) (v : Vec c K (dim + 1) p2) (s : K) (hs : s ≠ 0)
    (hd : 0 < dim) (r : Vec c K dim p) (r' : Vec c K dim p) (hr : Vec.dehomogenize v = some r)
    (hr' : Vec.dehomogenize (Vec.opScalar conv (· * ·) v s) = some r') (i : Fin dim) : r'.get i = r.get i := by
  rw [(C11_dehomogenize v hd).2 r hr i, (C11_dehomogenize _ hd).2 r' hr' i]
  simp only [C01_vec_scalar]
  exact mul_div_mul_right _ _ hs

example : ∃ v : Vec Cfg.sse ℚ 4 false, v.get (Fin.last 3) ≠ 0 ∧ v.get 0 ≠ 0 :=
  ⟨⟨fun l => l.val + 1⟩, by simp [Vec.get]; norm_num, by simp [Vec.get]⟩

/-! ## C12 -/

/-- C12: conversion between packings/configurations/scalar types converts element by element. -/
theorem C12_convert [Zero B] (cast : A → B) (o : Vec cA A dim p) (i : Fin dim) :
    (Vec.convert cast o : Vec cB B dim p2).get i = cast (o.get i) := by simp

/-- C12: converting to another packing and back restores all visible elements. -/
theorem C12_convert_roundtrip [Zero K] (o : Vec c K dim p) (i : Fin dim) :
    (Vec.convert id (Vec.convert id o : Vec c' K dim p2) : Vec c K dim p).get i = o.get i := by simp

/-- C12: fill constructor. -/
theorem C12_fill [Zero K] (x : K) (i : Fin dim) : (Vec.fill x : Vec c K dim p).get i = x := by simp

/-- C12: the pointer constructor reads exactly the first `Dim` elements: it is defined as soon as `Dim` elements are readable,
and the result is determined by these. -/
theorem C12_ptr [Zero K] (mem : List K) :
    ((Vec.ofPtr mem : Option (Vec c K dim p)).isSome = true ↔ dim ≤ mem.length) ∧
    ∀ v : Vec c K dim p, Vec.ofPtr mem = some v → ∀ i : Fin dim, mem[i.val]? = some (v.get i) := by
  unfold Vec.ofPtr
  constructor
  · split <;> simp_all
  · intro v hv i
    split at hv
    · rename_i h
      cases hv
      simp only [Vec.get_ofFn]
      exact List.getElem?_eq_getElem _
    · cases hv

/-- C12: constructors leave zero in the padding lanes (fill of a batched vector excepted, which repeats the value). -/
theorem C12_padding [Zero K] (f : Fin dim → K) (l : Fin (storageSize c dim p)) (h : dim ≤ l.val) :
    (Vec.ofFn f : Vec c K dim p).lanes l = 0 := by
  unfold Vec.ofFn
  dsimp only
  rw [dif_neg (by omega)]

/-- C12: element write through `operator[]` then read. -/
theorem C12_set_get (v : Vec c K dim p) (i j : Fin dim) (x : K) :
    (v.set i x).get j = if j = i then x else v.get j := Vec.get_set v i j x

example : (Vec.ofPtr [1, 2, 3, 4, 5] : Option (Vec Cfg.sse ℤ 3 false)).isSome = true := by decide

end Mathter.Props
