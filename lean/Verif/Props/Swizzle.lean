import Mathlib.Data.Fin.VecNotation
import Mathlib.Data.Nat.Digits.Defs
import Mathlib.Algebra.BigOperators.Group.List.Basic
import Verif.Lemmas.Swizzle
import Verif.Model.SwizzleTable

/-!
# Properties C05–C10, C71: swizzles and concatenation
-/

namespace Mathter.Props
open Mathter
universe u
variable {K : Type u} {c c' : Cfg} {dim dim2 k : ℕ} {p p' p2 : Bool}

/-! ## C05 -/

/-- C05: `Vector(v.<letters>)` has as its `t`-th element the source element named by the `t`-th letter: any letters, any
configuration, any uninitialised memory (`junk`, `junk'`) and any packing of the result. -/
theorem C05_read [Zero K] (junk junk' : ℕ → K) (src : Vec c K dim p) (idx : Fin k → Fin dim) (t : Fin k) :
    (Swz.toVec junk junk' src idx : Vec c K k p2).get t = src.get (idx t) := by
  unfold Swz.toVec
  dsimp only
  split
  · exact Swz.linearize_of_lt junk src idx t
  · unfold Vec.get
    dsimp only
    rw [dif_pos t.isLt]
    exact Swz.linearize_of_lt junk src idx t

/-- C05: `v.<letters>[t]` is the same element. -/
theorem C05_index (src : Vec c K dim p) (idx : Fin k → Fin dim) (t : Fin k) :
    Swz.get src idx t.val = some (src.get (idx t)) := by simp [Swz.get]

/-- C05/C04: comparing a vector with a swizzle compares element by element. -/
theorem C04_eq_vec_swizzle [Zero K] [BEq K] [LawfulBEq K] (junk : ℕ → K) (lhs : Vec c K k p2) (src : Vec c K dim p)
    (idx : Fin k → Fin dim) : Swz.eqVecSwz junk lhs src idx = true ↔ ∀ t, lhs.get t = src.get (idx t) := by
  simp [Swz.eqVecSwz, Swz.linearize_of_lt]

theorem C04_eq_swizzle_swizzle [Zero K] [BEq K] [LawfulBEq K] (junk1 junk2 : ℕ → K) (src : Vec c K dim p)
    (idx : Fin k → Fin dim) (src2 : Vec c K dim2 p2) (idx2 : Fin k → Fin dim2) :
    Swz.eqSwzSwz junk1 junk2 src idx src2 idx2 = true ↔ ∀ t, src.get (idx t) = src2.get (idx2 t) := by
  simp [Swz.eqSwzSwz, Swz.linearize_of_lt]

/-- The debug assertion of `operator[]` compares with the source dimension, so in `v.xyxy` of a 2-vector the valid index 3 is
rejected in debug builds, and in `v.xy` of a 4-vector the invalid index 3 is accepted (and reads past the table). -/
theorem C05_index_assert_violated :
    (∃ t, t < 4 ∧ Swz.indexAssert 2 t = false) ∧
    ∃ (v : Vec Cfg.scalar ℤ 4 false) (idx : Fin 2 → Fin 4), Swz.indexAssert 4 3 = true ∧ Swz.get v idx 3 = none :=
  ⟨⟨3, by decide, by decide⟩, ⟨fun _ => 0⟩, ![0, 1], by decide, by decide⟩

/-- Non-vacuity of C05 on both paths: `v.zyx`, `v.zzzz` of a 3-vector with 4 stored lanes. -/
example : (Swz.toVec (fun _ => 77) (fun _ => 88) (⟨fun l => l.val⟩ : Vec Cfg.sse ℕ 3 false) ![2, 1, 0] :
    Vec Cfg.sse ℕ 3 false).get 0 = 2 := by decide
example : (Swz.toVec (fun _ => 77) (fun _ => 88) (⟨fun l => l.val⟩ : Vec Cfg.sse ℕ 3 false) ![2, 2, 2, 2] :
    Vec Cfg.sse ℕ 4 false).get 3 = 2 := by decide

/-! ## C06 -/

/-- General form: repeated letters are allowed if they receive equal values. Used for C06 and C07. -/
theorem C06_assign_vec_consistent [Zero K] (junk : ℕ → K) (dst : Vec c K dim p) (idx : Fin k → Fin dim) (w : Vec c K k p2)
    (hk : k ≤ dim) (hd : dim ≤ 4) (hcons : ∀ s t, idx s = idx t → w.get s = w.get t) :
    ∃ r, Swz.assignVec junk dst idx w = some r ∧ (∀ t, r.get (idx t) = w.get t) ∧
      (∀ j, (∀ t, idx t ≠ j) → r.get j = dst.get j) := by
  obtain ⟨fresh, h1, h2, h3, _⟩ := Swz.delin_blend (c := c) (p := p) junk dst idx hk hd
    (fun t => if h : t.val < k then w.get ⟨t.val, h⟩ else 0) w.get (by intro t; simp) hcons
  refine ⟨_, ?_, h2, h3⟩
  unfold Swz.assignVec
  dsimp only
  rw [h1]
  rfl

/-- C06: `v.<letters> = w` with pairwise distinct letters and `w` a vector (any packing): the named elements receive the
elements of `w`, every other element keeps its value. -/
theorem C06_assign_vec [Zero K] (junk : ℕ → K) (dst : Vec c K dim p) (idx : Fin k → Fin dim) (w : Vec c K k p2)
    (hinj : Function.Injective idx) (hd : dim ≤ 4) :
    ∃ r, Swz.assignVec junk dst idx w = some r ∧ (∀ t, r.get (idx t) = w.get t) ∧
      (∀ j, (∀ t, idx t ≠ j) → r.get j = dst.get j) := by
  apply C06_assign_vec_consistent junk dst idx w _ hd
  · intro s t e; rw [hinj e]
  · simpa using Fintype.card_le_of_injective idx hinj

/-- C06: `v.<letters> = w.<letters2>` (template overload) with distinct letters on the left, `w` of the same packing, possibly
`v` itself: all reads happen before the writes. -/
theorem C06_assign_swizzle [Zero K] (junk1 junk2 : ℕ → K) (dst : Vec c K dim p) (idx : Fin k → Fin dim)
    (src : Vec c K dim2 p) (idx2 : Fin k → Fin dim2) (hinj : Function.Injective idx) (hd : dim ≤ 4) :
    ∃ r, Swz.assignSwz junk1 junk2 dst idx src idx2 = some r ∧ (∀ t, r.get (idx t) = src.get (idx2 t)) ∧
      (∀ j, (∀ t, idx t ≠ j) → r.get j = dst.get j) := by
  have hk : k ≤ dim := by simpa using Fintype.card_le_of_injective idx hinj
  obtain ⟨fresh, h1, h2, h3, _⟩ := Swz.delin_blend (c := c) (p := p) junk2 dst idx hk hd
    (fun t => if h : t.val < storageSize c k p then Swz.linearize junk1 src idx2 ⟨t.val, h⟩ else 0)
    (fun t => src.get (idx2 t))
    (by
      intro t
      have : t.val < storageSize c k p := Nat.lt_of_lt_of_le t.isLt (le_storageSize c k p)
      simp only [this, dif_pos]
      exact Swz.linearize_of_lt junk1 src idx2 t)
    (by intro s t e; rw [hinj e])
  refine ⟨_, ?_, h2, h3⟩
  unfold Swz.assignSwz
  dsimp only
  rw [if_pos le_rfl, h1]
  rfl

/-- C06: `v.yx = v.xy`-style self assignment is a simultaneous permutation: for a permutation `idx` of the letters, writing
`v.<idx> = v` gives the vector with `r[idx t] = v[t]`. -/
theorem C06_self_permute [Zero K] (junk : ℕ → K) (v : Vec c K dim p) (idx : Fin dim → Fin dim)
    (hinj : Function.Injective idx) (hd : dim ≤ 4) :
    ∃ r, Swz.assignVec junk v idx v = some r ∧ ∀ t, r.get (idx t) = v.get t := by
  obtain ⟨r, h1, h2, _⟩ := C06_assign_vec junk v idx v hinj hd
  exact ⟨r, h1, h2⟩

/-- C06: single-letter scalar assignment. -/
theorem C06_assign_scalar (dst : Vec c K dim p) (i j : Fin dim) (x : K) :
    (Swz.assignScalar dst i x).get j = if j = i then x else dst.get j := Vec.get_set dst i j x

/-- Non-vacuity: `v.wy` of a 4-vector is injective. -/
example : Function.Injective (![3, 1] : Fin 2 → Fin 4) ∧ (4 : ℕ) ≤ 4 := by
  constructor <;> decide

/-! ## C07 -/

/-- C07 is violated: `v.xx = (1, 2)` leaves 1 in `x` where the SIMD path is compiled and 2 where it is not. -/
theorem C07_repeated_letters_violated :
    ∃ (idx : Fin 2 → Fin 4) (w w' : Vec Cfg.sse ℤ 2 false) (v : Vec Cfg.sse ℤ 4 false) (u' : Vec Cfg.scalar ℤ 2 false)
      (v' : Vec Cfg.scalar ℤ 4 false) (r : Vec Cfg.sse ℤ 4 false) (r' : Vec Cfg.scalar ℤ 4 false),
      w = w' ∧ (∀ i, w.get i = u'.get i) ∧ (∀ i, v.get i = v'.get i) ∧
      Swz.assignVec (fun _ => 0) v idx w = some r ∧ Swz.assignVec (fun _ => 0) v' idx u' = some r' ∧
      r.get 0 = 1 ∧ r'.get 0 = 2 := by
  refine ⟨![0, 0], ⟨fun l => l.val + 1⟩, ⟨fun l => l.val + 1⟩, ⟨fun _ => 0⟩, ⟨fun l => l.val + 1⟩, ⟨fun _ => 0⟩,
    (Swz.assignVec (fun _ => 0) (⟨fun _ => 0⟩ : Vec Cfg.sse ℤ 4 false) ![0, 0]
      (⟨fun l => l.val + 1⟩ : Vec Cfg.sse ℤ 2 false)).get (by decide),
    (Swz.assignVec (fun _ => 0) (⟨fun _ => 0⟩ : Vec Cfg.scalar ℤ 4 false) ![0, 0]
      (⟨fun l => l.val + 1⟩ : Vec Cfg.scalar ℤ 2 false)).get (by decide), rfl, ?_, ?_, ?_, ?_, ?_, ?_⟩
  · decide
  · decide
  · simp
  · simp
  · decide
  · decide

/-- C07 is violated more severely: `v.xyx = w` on an unpacked 2-vector, in a configuration where 3-vectors are batched (4 lanes),
runs past the index table. -/
theorem C07_out_of_range_violated (junk : ℕ → ℤ) (v : Vec Cfg.sse ℤ 2 false) (w : Vec Cfg.sse ℤ 3 false) :
    Swz.assignVec junk v ![0, 1, 0] w = none := by
  have : ∀ (a : Fin (storageSize Cfg.sse 2 false) → ℤ) (t0 t1 t2 t3 : ℤ),
      Swz.delinLoop (![0, 1, 0] : Fin 3 → Fin 2) 0 a [t0, t1, t2, t3] = none := by
    intro a t0 t1 t2 t3
    have h2 : storageSize Cfg.sse 2 false = 2 := by decide
    simp [Swz.delinLoop, Swz.writeLane, h2]
  unfold Swz.assignVec Swz.delinearize
  have hs : Swz.simdPath Cfg.sse 2 3 false = false := by decide
  simp only [hs]
  have hl : ∀ f : Fin (storageSize Cfg.sse 3 false) → ℤ, ∃ a b d e, List.ofFn f = [a, b, d, e] := by
    intro f
    have h4 : storageSize Cfg.sse 3 false = 4 := by decide
    have : (List.ofFn f).length = 4 := by simp [h4]
    match List.ofFn f, this with
    | [a, b, d, e], _ => exact ⟨a, b, d, e, rfl⟩
  obtain ⟨a, b, d, e, he⟩ := hl (fun t => if h : t.val < 3 then w.get ⟨t.val, h⟩ else 0)
  simp only [he]
  simp [this]

/-- C07, provable part: with at most `Dim` letters, and equal values wherever a letter repeats, the assignment is defined and its
visible result is the same in any two configurations/packings. Missing for the full claim: repeated letters with differing values
(first occurrence wins with SIMD, last without) and more letters than the dimension (out-of-range access). -/
theorem C07_partial [Zero K] (junk junk' : ℕ → K) (idx : Fin k → Fin dim) (hk : k ≤ dim) (hd : dim ≤ 4)
    (dst : Vec c K dim p) (dst' : Vec c' K dim p') (w : Vec c K k p2) (w' : Vec c' K k p2)
    (hdst : ∀ i, dst.get i = dst'.get i) (hw : ∀ i, w.get i = w'.get i)
    (hcons : ∀ s t, idx s = idx t → w.get s = w.get t) :
    ∃ r r', Swz.assignVec junk dst idx w = some r ∧ Swz.assignVec junk' dst' idx w' = some r' ∧ ∀ j, r.get j = r'.get j := by
  obtain ⟨r, h1, h2, h3⟩ := C06_assign_vec_consistent junk dst idx w hk hd hcons
  obtain ⟨r', h1', h2', h3'⟩ := C06_assign_vec_consistent junk' dst' idx w' hk hd
    (by intro s t e; rw [← hw, ← hw]; exact hcons s t e)
  refine ⟨r, r', h1, h1', fun j => ?_⟩
  by_cases hj : ∃ t, idx t = j
  · obtain ⟨t, rfl⟩ := hj
    rw [h2, h2', hw]
  · have hj' : ∀ t, idx t ≠ j := fun t e => hj ⟨t, e⟩
    rw [h3 j hj', h3' j hj', hdst]

example : (∀ s t : Fin 2, (![1, 1] : Fin 2 → Fin 3) s = (![1, 1] : Fin 2 → Fin 3) t →
    (⟨fun _ => 5⟩ : Vec Cfg.sse ℤ 2 false).get s = (⟨fun _ => 5⟩ : Vec Cfg.sse ℤ 2 false).get t) := by decide

/-! ## C08 -/

/-- C08 is violated: `a.x = b.x` (same letters, same vector type) also overwrites `a.y`. -/
theorem C08_same_letters_violated :
    ∃ (a b : Vec Cfg.scalar ℤ 2 false) (r : Vec Cfg.scalar ℤ 2 false),
      Swz.assign (fun _ => 0) (fun _ => 0) a (![0] : Fin 1 → Fin 2) b ![0] = some r ∧ r.get 0 = b.get 0 ∧ r.get 1 ≠ a.get 1 :=
  ⟨⟨fun _ => 1⟩, ⟨fun _ => 2⟩, ⟨fun _ => 2⟩, by rfl, by decide, by decide⟩

/-- What `a.<letters> = b.<letters>` really does: it copies all of `b`. -/
theorem C08_same_letters_copies_all [Zero K] (junk1 junk2 : ℕ → K) (a b : Vec c K dim p) (idx : Fin k → Fin dim) :
    ∃ r, Swz.assign junk1 junk2 a idx b idx = some r ∧ ∀ j, r.get j = b.get j := by
  refine ⟨⟨b.lanes⟩, ?_, fun _ => rfl⟩
  unfold Swz.assign
  rw [if_pos (fun _ => rfl)]
  rfl

/-- C08, provable part: between different letters (distinct on the left) exactly the named elements change; for equal letters the
claim holds if `a` and `b` already agree on the elements that are not named. Missing: equal letters in general (violated). -/
theorem C08_partial [Zero K] (junk1 junk2 : ℕ → K) (a b : Vec c K dim p) (idx idx2 : Fin k → Fin dim)
    (hinj : Function.Injective idx) (hd : dim ≤ 4)
    (hsame : idx = idx2 → ∀ j, (∀ t, idx t ≠ j) → a.get j = b.get j) :
    ∃ r, Swz.assign junk1 junk2 a idx b idx2 = some r ∧ (∀ t, r.get (idx t) = b.get (idx2 t)) ∧
      (∀ j, (∀ t, idx t ≠ j) → r.get j = a.get j) := by
  by_cases h : idx = idx2
  · subst h
    obtain ⟨r, h1, h2⟩ := C08_same_letters_copies_all junk1 junk2 a b idx
    exact ⟨r, h1, fun t => h2 _, fun j hj => by rw [h2, hsame rfl j hj]⟩
  · obtain ⟨r, h1, h2, h3⟩ := C06_assign_swizzle junk1 junk2 a idx b idx2 hinj hd
    refine ⟨r, ?_, h2, h3⟩
    unfold Swz.assign
    rw [if_neg, h1]
    intro e
    exact h (funext e)

example : Function.Injective (![0, 1] : Fin 2 → Fin 3) ∧
    ((![0, 1] : Fin 2 → Fin 3) = ![1, 2] → ∀ j, (∀ t, (![0, 1] : Fin 2 → Fin 3) t ≠ j) → (1 : ℤ) = 2) := by
  constructor
  · decide
  · intro h; exact absurd (congrFun h 0) (by decide)

/-! ## C71 -/

/-- C71 is violated: assigning an unpacked 3-letter swizzle (4 stored lanes) to a packed one writes past the target array. -/
theorem C71_mixed_packing_violated (junk1 junk2 : ℕ → ℤ) (dst : Vec Cfg.sse ℤ 3 true) (src : Vec Cfg.sse ℤ 3 false)
    (idx idx2 : Fin 3 → Fin 3) : Swz.assignSwz junk1 junk2 dst idx src idx2 = none := by
  unfold Swz.assignSwz
  have h1 : storageSize Cfg.sse 3 false = 4 := by decide
  have h2 : storageSize Cfg.sse 3 true = 3 := by decide
  simp only [h1, h2]
  rfl

/-- C71, provable part: the assignment is defined and correct whenever the right swizzle's array is no larger than the left one's
(same packing, or target length other than 3, 5, 6, 7, or no SIMD batch for it). -/
theorem C71_partial [Zero K] (junk1 junk2 : ℕ → K) (dst : Vec c K dim p) (idx : Fin k → Fin dim)
    (src : Vec c K dim2 p2) (idx2 : Fin k → Fin dim2) (hinj : Function.Injective idx) (hd : dim ≤ 4)
    (hfit : storageSize c k p2 ≤ storageSize c k p) :
    ∃ r, Swz.assignSwz junk1 junk2 dst idx src idx2 = some r ∧ (∀ t, r.get (idx t) = src.get (idx2 t)) ∧
      (∀ j, (∀ t, idx t ≠ j) → r.get j = dst.get j) := by
  have hk : k ≤ dim := by simpa using Fintype.card_le_of_injective idx hinj
  obtain ⟨fresh, h1, h2, h3, _⟩ := Swz.delin_blend (c := c) (p := p) junk2 dst idx hk hd
    (fun t => if h : t.val < storageSize c k p2 then Swz.linearize junk1 src idx2 ⟨t.val, h⟩ else 0)
    (fun t => src.get (idx2 t))
    (by
      intro t
      have : t.val < storageSize c k p2 := Nat.lt_of_lt_of_le t.isLt (le_storageSize c k p2)
      simp only [this, dif_pos]
      exact Swz.linearize_of_lt junk1 src idx2 t)
    (by intro s t e; rw [hinj e])
  refine ⟨_, ?_, h2, h3⟩
  unfold Swz.assignSwz
  dsimp only
  rw [if_pos hfit, h1]
  rfl

example : storageSize Cfg.sse 3 true ≤ storageSize Cfg.sse 3 false ∧ storageSize Cfg.sse 2 false ≤ storageSize Cfg.sse 2 true := by
  decide

/-! ## C09 -/

private theorem genIndices_acc (d : ℕ) : ∀ (n code : ℕ) (acc : List ℕ),
    genIndices d n code acc = genIndices d n code [] ++ acc
  | 0, _, acc => rfl
  | n + 1, code, acc => by
      rw [genIndices, genIndices_acc d n _ (code % d :: acc), genIndices, genIndices_acc d n _ [code % d]]
      simp

private theorem genIndices_succ (d n code : ℕ) :
    genIndices d (n + 1) code [] = genIndices d n (code / d) [] ++ [code % d] := by
  rw [genIndices, genIndices_acc]

private theorem genIndices_length (d : ℕ) : ∀ (n code : ℕ), (genIndices d n code []).length = n
  | 0, _ => rfl
  | n + 1, code => by rw [genIndices_succ]; simp [genIndices_length d n]

private theorem genIndices_lt (d : ℕ) (hd : 0 < d) : ∀ (n code : ℕ), ∀ x ∈ genIndices d n code [], x < d
  | 0, _, x, h => by simp [genIndices] at h
  | n + 1, code, x, h => by
      rw [genIndices_succ] at h
      simp only [List.mem_append, List.mem_singleton] at h
      rcases h with h | h
      · exact genIndices_lt d hd n _ x h
      · subst h; exact Nat.mod_lt _ hd

private theorem genIndices_inj (d : ℕ) (hd : 0 < d) : ∀ (n a b : ℕ), a < d ^ n → b < d ^ n →
    genIndices d n a [] = genIndices d n b [] → a = b
  | 0, a, b, ha, hb, _ => by simp at ha hb; omega
  | n + 1, a, b, ha, hb, h => by
      rw [genIndices_succ, genIndices_succ] at h
      obtain ⟨h1, h2⟩ := List.append_inj' h rfl
      have h3 : a % d = b % d := by simpa using h2
      have h4 := genIndices_inj d hd n (a / d) (b / d)
        (Nat.div_lt_of_lt_mul (by rw [pow_succ] at ha; rwa [Nat.mul_comm])) (Nat.div_lt_of_lt_mul (by rw [pow_succ] at hb; rwa [Nat.mul_comm])) h1
      rw [← Nat.div_add_mod a d, ← Nat.div_add_mod b d, h3, h4]

private theorem genIndices_surj (d : ℕ) : ∀ (n : ℕ) (xs : List ℕ), xs.length = n → (∀ x ∈ xs, x < d) →
    ∃ code, code < d ^ n ∧ genIndices d n code [] = xs
  | 0, xs, hl, _ => ⟨0, by simp, by rw [List.length_eq_zero_iff.1 hl]; rfl⟩
  | n + 1, xs, hl, hx => by
      have hne : xs ≠ [] := by intro h; simp [h] at hl
      obtain ⟨code, hc, he⟩ := genIndices_surj d n xs.dropLast (by simp [hl])
        (fun x h => hx x (List.mem_of_mem_dropLast h))
      have hlast : xs.getLast hne < d := hx _ (List.getLast_mem hne)
      refine ⟨code * d + xs.getLast hne, ?_, ?_⟩
      · calc code * d + xs.getLast hne < code * d + d := by omega
          _ = (code + 1) * d := by ring
          _ ≤ d ^ n * d := Nat.mul_le_mul_right _ hc
          _ = d ^ (n + 1) := (pow_succ d n).symm
      · rw [genIndices_succ]
        have h1 : (code * d + xs.getLast hne) / d = code := by
          rw [Nat.mul_comm, Nat.mul_add_div (by omega), Nat.div_eq_of_lt hlast]; omega
        have h2 : (code * d + xs.getLast hne) % d = xs.getLast hne := by
          rw [Nat.mul_comm, Nat.mul_add_mod, Nat.mod_eq_of_lt hlast]
        rw [h1, h2, he, List.dropLast_append_getLast hne]

/-- C09: for every alphabet and length, the generator emits each index tuple exactly once and nothing else, and each entry's name
spells its indices. -/
theorem C09_generator_complete {α : Type u} (elements : List α) (count : ℕ) (hne : elements ≠ []) :
    ((genAccessors elements count).map (·.2)).Nodup ∧
    (∀ xs : List ℕ, xs ∈ (genAccessors elements count).map (·.2) ↔ xs.length = count ∧ ∀ x ∈ xs, x < elements.length) ∧
    (∀ e ∈ genAccessors elements count, e.1 = e.2.map (fun i => elements[i]?) ∧ none ∉ e.1) ∧
    (genAccessors elements count).length = elements.length ^ count := by
  have hd : 0 < elements.length := List.length_pos_iff.2 hne
  have hmap : (genAccessors elements count).map (·.2) =
      (List.range (elements.length ^ count)).map fun code => genIndices elements.length count code [] := by
    simp [genAccessors]
  refine ⟨?_, ?_, ?_, ?_⟩
  · rw [hmap]
    apply List.Nodup.map_on _ List.nodup_range
    intro a ha b hb h
    exact genIndices_inj _ hd _ _ _ (List.mem_range.1 ha) (List.mem_range.1 hb) h
  · intro xs
    rw [hmap, List.mem_map]
    constructor
    · rintro ⟨code, _, rfl⟩
      exact ⟨genIndices_length _ _ _, genIndices_lt _ hd _ _⟩
    · rintro ⟨hl, hx⟩
      obtain ⟨code, hc, he⟩ := genIndices_surj _ _ xs hl hx
      exact ⟨code, List.mem_range.2 hc, he⟩
  · intro e he
    unfold genAccessors at he
    rw [List.mem_map] at he
    obtain ⟨code, _, rfl⟩ := he
    refine ⟨rfl, ?_⟩
    intro hnone
    dsimp only at hnone
    rw [List.mem_map] at hnone
    obtain ⟨i, hi, hnone⟩ := hnone
    have := genIndices_lt _ hd _ _ i hi
    rw [List.getElem?_eq_getElem this] at hnone
    cases hnone
  · simp [genAccessors]

/-- C09: names are unique when the letters are. -/
theorem C09_names_unique {α : Type u} (elements : List α) (count : ℕ) (hne : elements ≠ []) (hnd : elements.Nodup) :
    ((genAccessors elements count).map (·.1)).Nodup := by
  have hd : 0 < elements.length := List.length_pos_iff.2 hne
  have hmap : (genAccessors elements count).map (·.1) =
      (List.range (elements.length ^ count)).map fun code =>
        (genIndices elements.length count code []).map fun i => elements[i]? := by
    simp [genAccessors]
  rw [hmap]
  apply List.Nodup.map_on _ List.nodup_range
  intro a ha b hb h
  apply genIndices_inj _ hd _ _ _ (List.mem_range.1 ha) (List.mem_range.1 hb)
  have key : ∀ (xs ys : List ℕ), (∀ x ∈ xs, x < elements.length) → (∀ y ∈ ys, y < elements.length) →
      xs.map (fun i => elements[i]?) = ys.map (fun i => elements[i]?) → xs = ys := by
    intro xs
    induction xs with
    | nil => intro ys _ _ h; cases ys with
      | nil => rfl
      | cons => simp at h
    | cons x xs ih =>
      intro ys hx hy h
      cases ys with
      | nil => simp at h
      | cons y ys =>
        simp only [List.map_cons, List.cons.injEq] at h
        have hx0 := hx x (by simp)
        have hy0 := hy y (by simp)
        have : x = y := by
          have h1 := h.1
          rw [List.getElem?_eq_getElem hx0, List.getElem?_eq_getElem hy0] at h1
          exact (List.Nodup.getElem_inj_iff hnd).1 (Option.some.inj h1)
        subst this
        rw [ih ys (fun z hz => hx z (by simp [hz])) (fun z hz => hy z (by simp [hz])) h.2]
  exact key _ _ (genIndices_lt _ hd _ _) (genIndices_lt _ hd _ _) h

/-- The letters of dimension `d` — swizzle_codegen.py:24-32. -/
def letters (d : ℕ) : List String := ["x", "y", "z", "w"].take d

/-- Generator output for one dimension as (name, indices) — swizzle_codegen.py:33-38. -/
def generated (d : ℕ) : List (String × List ℕ) :=
  ([1, 2, 3, 4].flatMap fun n => genAccessors (letters d) n).map fun e =>
    (e.1.foldl (fun s o => s ++ o.getD "?") "", e.2)

/-- C09: the four checked-in tables are exactly the generator's output for the letters x, y, z, w (a finite table, compared in
full). Together with `C09_generator_complete`, each table contains each tuple of length 1..4 exactly once under its name. -/
theorem C09_tables_are_generated :
    swizzleTable1 = generated 1 ∧ swizzleTable2 = generated 2 ∧ swizzleTable3 = generated 3 ∧ swizzleTable4 = generated 4 := by
  refine ⟨?_, ?_, ?_, ?_⟩ <;> decide +kernel

example : (["x", "y", "z"] : List String) ≠ [] ∧ (["x", "y", "z"] : List String).Nodup := by decide

/-! ## C10 -/

private theorem assignParts_spec {n : ℕ} : ∀ (parts : List (Part K)) (offset : ℕ) (a : Fin n → K),
    offset + (parts.map Part.dim).sum ≤ n → ∃ a', assignParts offset a parts = some a' ∧
      (∀ l : Fin n, l.val < offset → a' l = a l) ∧
      (∀ (l : Fin n), offset ≤ l.val → l.val < offset + (parts.map Part.dim).sum →
        (parts.flatMap fun q => List.ofFn q.elem)[l.val - offset]? = some (a' l)) := by
  intro parts
  induction parts with
  | nil =>
    intro offset a _
    exact ⟨a, rfl, fun _ _ => rfl, fun l h1 h2 => by simp at h2; omega⟩
  | cons q qs ih =>
    intro offset a h
    simp only [List.map_cons, List.sum_cons] at h
    obtain ⟨a', ha', hlow, hval⟩ := ih (offset + q.dim)
      (fun l => if h : offset ≤ l.val ∧ l.val - offset < q.dim then q.elem ⟨l.val - offset, h.2⟩ else a l) (by omega)
    refine ⟨a', ?_, ?_, ?_⟩
    · rw [assignParts, if_pos (by omega)]; exact ha'
    · intro l hl
      rw [hlow l (by omega), dif_neg (by omega)]
    · intro l h1 h2
      simp only [List.map_cons, List.sum_cons] at h2
      rw [List.flatMap_cons]
      by_cases hq : l.val < offset + q.dim
      · rw [List.getElem?_append_left (by simp; omega), hlow l hq, dif_pos ⟨h1, by omega⟩, List.getElem?_ofFn,
          dif_pos (by omega)]
      · rw [List.getElem?_append_right (by simp; omega)]
        have := hval l (by omega) (by omega)
        simp only [List.length_ofFn]
        rw [← this]
        congr 1
        omega

/-- C10: `Vector(p₁, …, pₙ)` whose part dimensions add up to `Dim` is defined, its elements are the elements of the parts in
order, and its padding is zero — for any uninitialised initial storage. -/
theorem C10_concat [Zero K] (init : Fin (storageSize c dim p) → K) (parts : List (Part K))
    (htotal : (parts.map Part.dim).sum = dim) :
    ∃ v : Vec c K dim p, Vec.concat init parts = some v ∧
      List.ofFn v.get = parts.flatMap (fun q => List.ofFn q.elem) ∧
      ∀ l : Fin (storageSize c dim p), dim ≤ l.val → v.lanes l = 0 := by
  obtain ⟨a', ha', _, hval⟩ := assignParts_spec parts 0 init (by rw [htotal]; simpa using le_storageSize c dim p)
  refine ⟨⟨fun l => if l.val < dim then a' l else 0⟩, ?_, ?_, ?_⟩
  · unfold Vec.concat; rw [ha']; rfl
  · apply List.ext_getElem?
    intro i
    rw [List.getElem?_ofFn]
    by_cases hi : i < dim
    · rw [dif_pos hi]
      have := hval ⟨i, Nat.lt_of_lt_of_le hi (le_storageSize c dim p)⟩ (Nat.zero_le _) (by rw [htotal]; simpa using hi)
      simp only [Nat.sub_zero] at this
      rw [this]
      simp [Vec.get, hi]
    · rw [dif_neg hi]
      symm
      rw [List.getElem?_eq_none_iff]
      have : (parts.flatMap fun q => List.ofFn q.elem).length = (parts.map Part.dim).sum := by
        simp [List.length_flatMap]
      omega
  · intro l hl
    exact if_neg (by omega)

/-- Non-vacuity: a scalar, a pair and a scalar concatenated to a 4-vector. -/
example : ((([.scalar 1, .seq 2 ![2, 3], .scalar 4] : List (Part ℤ)).map Part.dim).sum = 4) := by decide

end Mathter.Props
